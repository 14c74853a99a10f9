import Mathlib.Tactic.FieldSimp
import Mathlib.Tactic.NormNum
import Verif.Lemmas.Collision
import Verif.Lemmas.CudaCollisionRel

/-!
# C72: collisions on the GPU
-/

namespace Psc.Props

open Psc.Cuda Psc.CudaPrts
open Psc.A2 (Prt)
open Psc.Coll (cellPairs binary energy)

section
variable {K : Type} [Field K] [LinearOrder K] [IsStrictOrderedRing K] [FloorRing K]

/-- **C72.**  After any history of injections, pushes, exchanges, reads, removals and collisions, if every particle is in its
patch: collisions can be carried out; whatever the random numbers, the order of the threads and the order in which equal keys
are sorted, no assertion fails and no access is out of bounds; and when the particles are then read, in every cell of every
patch all particles, or all but one if their number is odd, have collided once with another particle of the same cell, and
nothing else has changed. -/
theorem C72_collisions (e : Env K) (hg : e.g.Ok) (bc : K → ℕ → Sto K → Sto K → R3 K × R3 K) (ν : K) (a : Abs K) (s : State K)
    (h : Reach e bc ν s a) (hin : ∀ p < e.g.nPatches, ∀ q ∈ a.c p, InPatch e q.x) :
    (∃ s', Collides e bc ν s (some s')) ∧ ¬Collides e bc ν s none ∧
      ∀ s', Collides e bc ν s (some s') → (∃ l s'', Step e s' .read (.prts l) s'') ∧
        ∀ l s'', Step e s' .read (.prts l) s'' → ∀ p < e.g.nPatches, ∀ i,
          CellCollided (Collision bc ν) (inCell e i (a.c p)) (inCell e i (stored (l.getD p []))) := by
  have hr := reach_rel hg h
  obtain ⟨h1, h2⟩ := collides_ok (bc := bc) (ν := ν) hg hr hin
  refine ⟨h1, fun hc => ?_, fun s' hc => ?_⟩
  · obtain ⟨_, _, h3, _⟩ := h2 _ hc
    simp at h3
  · obtain ⟨s₁, c', h3, h4, h5⟩ := h2 _ hc
    rw [Option.some.injEq] at h3
    subst h3
    obtain ⟨⟨o, s'', hs⟩, _, hgood⟩ := good_read hg h4
    refine ⟨?_, fun l s'' hs p hp i => ?_⟩
    · cases hs with
      | read h => exact ⟨_, _, .read h⟩
    · have := (hgood _ _ hs).1.2 p hp
      rw [this]
      exact h5 p hp i

/-- **C72.**  Collisions do not disturb the storage of the particles: after any history of operations and collisions every
allowed operation can be carried out, does not fail, and what is observed is what the particles of each patch say (those after
the last collisions being what is read then). -/
theorem C72_history (e : Env K) (hg : e.g.Ok) (bc : K → ℕ → Sto K → Sto K → R3 K × R3 K) (ν : K) (a : Abs K) (s : State K)
    (h : Reach e bc ν s a) (i : In K) (ha : Allowed e a i) :
    ¬Fails e s i ∧ (∃ o s', Step e s i o s') ∧ ∀ o s', Step e s i o s' → Observed e a i o := by
  obtain ⟨h1, h2, h3⟩ := good hg (reach_rel hg h) ha
  exact ⟨h2, h1, fun o s' hs => (h3 o s' hs).1⟩

end

/-- collisions of kinds of particles with masses keep what they should -/
theorem collided_conserves {kinds : ℕ → ℝ × ℝ} (hm : ∀ k, 0 < (kinds k).2) {fpsi : ℝ → ℝ → ℝ} {rnd : ℕ → ℝ × ℝ} {ν : ℝ}
    {c c' : Multiset (Sto ℝ)} (h : CellCollided (Collision (gpuBc kinds fpsi rnd) ν) c c') :
    c'.map (fun q => (q.x, q.qni_wni, q.kind)) = c.map (fun q => (q.x, q.qni_wni, q.kind)) ∧
      (∀ d, momentum kinds d c' = momentum kinds d c) ∧ totalEnergy kinds c' = totalEnergy kinds c := by
  obtain ⟨l, rest, _, rfl, rfl, h4⟩ := h
  have key : ∀ {M : Type} [AddCommMonoid M] (f : Sto ℝ → M), (∀ t ∈ l, f t.2.1 + f t.2.2 = f t.1.1 + f t.1.2) →
      ((((l.map fun t => t.2.1 : List (Sto ℝ)) : Multiset (Sto ℝ)) + ((l.map fun t => t.2.2 : List (Sto ℝ)) : Multiset (Sto ℝ)) +
        rest).map f).sum =
      ((((l.map fun t => t.1.1 : List (Sto ℝ)) : Multiset (Sto ℝ)) + ((l.map fun t => t.1.2 : List (Sto ℝ)) : Multiset (Sto ℝ)) +
        rest).map f).sum := by
    intro M _ f hf
    simp only [Multiset.map_add, Multiset.sum_add, Multiset.map_coe, Multiset.sum_coe, List.map_map]
    congr 1
    rw [← List.sum_map_add, ← List.sum_map_add]
    congr 1
    exact List.map_congr_left fun t ht => hf t ht
  have hb : ∀ t ∈ l, ∃ n r, t.2 = ({ t.1.1 with u := (gpuBc kinds fpsi rnd r n t.1.1 t.1.2).1 },
      { t.1.2 with u := (gpuBc kinds fpsi rnd r n t.1.1 t.1.2).2 }) := by
    intro t ht
    obtain ⟨n, hn⟩ := h4 t ht
    exact ⟨n, _, hn⟩
  refine ⟨?_, fun d => ?_, ?_⟩
  · have h1 := key (M := Multiset (R3 ℝ × ℝ × ℕ)) (fun q => {(q.x, q.qni_wni, q.kind)}) (fun t ht => by
      obtain ⟨n, r, h⟩ := hb t ht
      rw [h])
    have h2 : ∀ m : Multiset (Sto ℝ), (m.map fun q => ({(q.x, q.qni_wni, q.kind)} : Multiset (R3 ℝ × ℝ × ℕ))).sum =
        m.map fun q => (q.x, q.qni_wni, q.kind) := fun m => by
      rw [← Multiset.sum_map_singleton (m.map fun q => (q.x, q.qni_wni, q.kind)), Multiset.map_map]
      rfl
    rw [h2, h2] at h1
    exact h1
  · refine key _ fun t ht => ?_
    obtain ⟨n, r, h⟩ := hb t ht
    rw [h]
    obtain ⟨k, _, k1, k2⟩ := Coll.binary_conserves fpsi r (rnd n).1 (rnd n).2 (cprt kinds t.1.1) (cprt kinds t.1.2) (hm _) (hm _)
    exact k d
  · refine key _ fun t ht => ?_
    obtain ⟨n, r, h⟩ := hb t ht
    rw [h]
    obtain ⟨_, k, k1, k2⟩ := Coll.binary_conserves fpsi r (rnd n).1 (rnd n).2 (cprt kinds t.1.1) (cprt kinds t.1.2) (hm _) (hm _)
    unfold energy at k ⊢
    rw [k1.2.1, k2.2.1] at k
    exact k

/-- **C72.**  Collisions on the GPU keep in every cell the number of particles, their positions, charges and kinds, and, if all
particles have the same weight, the total momentum and energy: after any history, for all random numbers, any scattering law
and any order of the threads. -/
theorem C72_conserves (e : Env ℝ) (hg : e.g.Ok) (kinds : ℕ → ℝ × ℝ) (hm : ∀ k, 0 < (kinds k).2) (fpsi : ℝ → ℝ → ℝ)
    (rnd : ℕ → ℝ × ℝ) (ν : ℝ) (a : Abs ℝ) (s s' s'' : State ℝ) (h : Reach e (gpuBc kinds fpsi rnd) ν s a)
    (hin : ∀ p < e.g.nPatches, ∀ q ∈ a.c p, InPatch e q.x) (hc : Collides e (gpuBc kinds fpsi rnd) ν s (some s'))
    (l : List (List (Prt ℝ))) (hr : Step e s' .read (.prts l) s'') (p : ℕ) (hp : p < e.g.nPatches) (i : I3) :
    (inCell e i (stored (l.getD p []))).map (fun q => (q.x, q.qni_wni, q.kind)) =
        (inCell e i (a.c p)).map (fun q => (q.x, q.qni_wni, q.kind)) ∧
      (∀ d, momentum kinds d (inCell e i (stored (l.getD p []))) = momentum kinds d (inCell e i (a.c p))) ∧
      totalEnergy kinds (inCell e i (stored (l.getD p []))) = totalEnergy kinds (inCell e i (a.c p)) :=
  collided_conserves hm (((C72_collisions e hg _ ν a s h hin).2.2 s' hc).2 l s'' hr p hp i)

/-! ## rates -/

theorem pairUp_length : ∀ (l : List ℕ) (r : List (ℕ × ℕ × Bool)), Coll.pairUp l = some r →
    2 * r.length = l.length ∧ ∀ q ∈ r, q.2.2 = false
  | [], r, h => by
    have : r = [] := (Option.some.inj h).symm
    simp [this]
  | [_], r, h => by simp [Coll.pairUp] at h
  | a :: b :: l, r, h => by
    unfold Coll.pairUp at h
    obtain ⟨r', h1, rfl⟩ := Option.map_eq_some_iff.1 h
    obtain ⟨h2, h3⟩ := pairUp_length l r' h1
    refine ⟨by simp only [List.length_cons]; omega, fun q hq => ?_⟩
    rcases List.mem_cons.1 hq with rfl | hq
    · rfl
    · exact h3 q hq

/-- **C72.**  The sum of the rates of all collisions in a cell of `m ≥ 2` particles, each of weight `w`, on the CPU (where
the last three of an odd number collide with each other at half the rate) is `w` times that on the GPU (where one of an odd
number does not collide): with weight 1 both scatter at the same rate.  Missing: equal rates for other weights, which is
false of the code (`C72_weights`).  `fac` is the rate for one particle of weight 1. -/
theorem C72_rate_partial (w fac : ℝ) (permute : List ℕ) (hm : 2 ≤ permute.length) :
    ∃ r, cellPairs permute = some r ∧
      (r.map fun q => if q.2.2 then w * fac * permute.length / 2 else w * fac * permute.length).sum =
        w * ((permute.length / 2 : ℕ) * rate fac permute.length) := by
  have hsum : ∀ (r : List (ℕ × ℕ × Bool)) (x y : ℝ), (∀ q ∈ r, q.2.2 = false) →
      (r.map fun q => if q.2.2 then x else y).sum = r.length * y := by
    intro r x y h
    rw [List.map_congr_left (g := fun _ => y) fun q hq => by rw [h q hq]; simp]
    simp
  have hgpu : ((permute.length / 2 : ℕ) : ℝ) * rate fac permute.length = fac * permute.length ^ 2 / 2 := by
    rw [rate_eq]
    have h0 : ((permute.length / 2 : ℕ) : ℝ) ≠ 0 := by
      have : permute.length / 2 ≠ 0 := by omega
      exact_mod_cast this
    field_simp
  rw [hgpu]
  unfold cellPairs
  rw [if_neg (by omega)]
  by_cases ho : permute.length % 2 = 1
  · rw [if_pos ho]
    match permute, hm, ho with
    | [_], hm, _ => simp at hm
    | [_, _], _, ho => simp at ho
    | a :: b :: c :: l, hm, ho =>
      obtain ⟨r, hr⟩ : ∃ r, Coll.pairUp l = some r := by
        have := Coll.cellPairs_some (a :: b :: c :: l)
        obtain ⟨r, e, _⟩ := this
        unfold cellPairs at e
        rw [if_neg (by omega), if_pos ho] at e
        obtain ⟨r', h1, _⟩ := Option.map_eq_some_iff.1 e
        exact ⟨r', h1⟩
      obtain ⟨h1, h2⟩ := pairUp_length l r hr
      simp only [hr, Option.map_some]
      refine ⟨_, rfl, ?_⟩
      simp only [List.map_cons, List.sum_cons, if_true]
      rw [hsum r _ _ h2]
      have hl : ((a :: b :: c :: l).length : ℝ) = 2 * r.length + 3 := by
        simp only [List.length_cons]
        push_cast
        have : (l.length : ℝ) = 2 * r.length := by rw [← h1]; push_cast; ring
        rw [this]
        ring
      rw [hl]
      ring
  · rw [if_neg ho]
    obtain ⟨r, hr, _⟩ := Coll.cellPairs_some permute
    unfold cellPairs at hr
    rw [if_neg (by omega), if_neg ho] at hr
    obtain ⟨h1, h2⟩ := pairUp_length permute r hr
    refine ⟨r, hr, ?_⟩
    rw [hsum r _ _ h2]
    have hl : (permute.length : ℝ) = 2 * r.length := by rw [← h1]; push_cast; ring
    rw [hl]
    ring

/-- **C72, violation.**  The GPU code takes every particle to have weight 1: two particles of weight 2 collide at half the rate
they have on the CPU. -/
theorem C72_weights : ∃ r, cellPairs [0, 1] = some r ∧
    (r.map fun q => if q.2.2 then (2 : ℝ) * 1 * 2 / 2 else 2 * 1 * 2).sum ≠ (2 / 2 : ℕ) * rate (1 : ℝ) 2 := by
  refine ⟨[(0, 1, false)], rfl, ?_⟩
  norm_num [rate]

/-! ## examples -/

/-- one cell -/
noncomputable def gpuCollEnv : Env ℝ := ⟨⟨fun _ => 1, fun _ => 1, 1, 1⟩, fun _ => 1⟩

/-- an electron or an ion -/
noncomputable def gpuCollPrt (k : ℕ) : Prt ℝ := ⟨fun _ => 1 / 2, fun d => k + d, 1, k, 0, 0⟩

/-- an electron, an ion and another electron in a cell collide -/
example (kinds : ℕ → ℝ × ℝ) (fpsi : ℝ → ℝ → ℝ) (rnd : ℕ → ℝ × ℝ) : ∃ s a, gpuCollEnv.g.Ok ∧
    Reach gpuCollEnv (gpuBc kinds fpsi rnd) (1 / 10) s a ∧ (∀ p < gpuCollEnv.g.nPatches, ∀ q ∈ a.c p, InPatch gpuCollEnv q.x) ∧
    Multiset.card (a.c 0) = 3 ∧ ∃ s', Collides gpuCollEnv (gpuBc kinds fpsi rnd) (1 / 10) s (some s') := by
  have hg : gpuCollEnv.g.Ok := ⟨by intro d; exact Nat.one_pos, by intro d; exact dvd_rfl, fun _ => ⟨rfl, rfl⟩⟩
  have hin : ∀ k, InPatch gpuCollEnv (gpuCollPrt k).x := by
    intro k d
    simp only [gpuCollPrt, gpuCollEnv]
    norm_num
  have ha : Allowed gpuCollEnv Abs.init (.inject [[gpuCollPrt 0, gpuCollPrt 1, gpuCollPrt 0]]) := by
    refine ⟨rfl, ?_, by simp [Abs.init]⟩
    simp only [List.mem_cons, List.not_mem_nil, or_false, forall_eq_or_imp, forall_eq]
    exact ⟨hin 0, hin 1, hin 0⟩
  obtain ⟨⟨o, s, hs⟩, _⟩ := good hg (rel_init gpuCollEnv) ha
  have hr : Reach gpuCollEnv (gpuBc kinds fpsi rnd) (1 / 10) s _ := .step .init ha hs
  have hall : ∀ p < gpuCollEnv.g.nPatches, ∀ q ∈ (after gpuCollEnv Abs.init
      (.inject [[gpuCollPrt 0, gpuCollPrt 1, gpuCollPrt 0]])).c p, InPatch gpuCollEnv q.x := by
    intro p hp q hq
    have : p = 0 := Nat.lt_one_iff.1 hp
    subst this
    simp only [after, Abs.init, zero_add, stored, List.getD_cons_zero, Multiset.mem_coe, List.mem_map] at hq
    obtain ⟨b, hb, rfl⟩ := hq
    simp only [List.mem_cons, List.not_mem_nil, or_false] at hb
    rcases hb with rfl | rfl | rfl
    · exact hin 0
    · exact hin 1
    · exact hin 0
  exact ⟨s, _, hg, hr, hall, by simp [after, Abs.init, stored], (C72_collisions _ hg _ _ _ _ hr hall).1⟩

end Psc.Props
