import Mathlib.Data.Multiset.Basic
import Verif.Lemmas.CudaPrtsOps

/-!
# The state of the GPU particles and the particles of each patch
-/

namespace Psc.CudaPrts

open Psc.Cuda
open Psc.A2 (Prt)

variable {K : Type} [Field K] [LinearOrder K] [IsStrictOrderedRing K] [FloorRing K]

/-! ## blocks and patches -/

/-- the blocks of patch `p` -/
def patchOf (e : Env K) (B : ℕ → List (Sto K)) (p : ℕ) : List (Sto K) := flat (fun r => B (p * e.g.bpp + r)) e.g.bpp

/-- every particle is in its block -/
def Blocks (e : Env K) (B : ℕ → List (Sto K)) : Prop :=
  ∀ r < e.g.nBlocks, ∀ q ∈ B r, blockIndex e q.x (r / e.g.bpp) = some r

/-- block numbers of the particles -/
noncomputable def keys (e : Env K) (B : ℕ → List (Sto K)) : List ℕ :=
  flat (fun r => (B r).map fun q => code e (r / e.g.bpp) q.x) e.g.nBlocks

theorem flat_patch (e : Env K) (B : ℕ → List (Sto K)) : flat B e.g.nBlocks = flat (patchOf e B) e.g.nPatches := flat_flat B _ _

theorem pre_patch (e : Env K) (B : ℕ → List (Sto K)) (p : ℕ) : pre B (p * e.g.bpp) = pre (patchOf e B) p := pre_mul B _ _

theorem keys_patch (e : Env K) (B : ℕ → List (Sto K)) :
    keys e B = flat (fun p => (patchOf e B p).map fun q => code e p q.x) e.g.nPatches := by
  unfold keys
  rw [show e.g.nBlocks = e.g.nPatches * e.g.bpp from rfl, flat_flat]
  refine flat_congr fun p _ => ?_
  unfold patchOf
  rw [flat_map]
  refine flat_congr fun r hr => ?_
  rw [Nat.mul_comm, Nat.mul_add_div (by omega), Nat.div_eq_of_lt hr, Nat.add_zero, Nat.mul_comm]

theorem keys_length (e : Env K) (B : ℕ → List (Sto K)) : (keys e B).length = pre B e.g.nBlocks := by
  rw [keys, flat_length]
  exact pre_congr (by simp)

theorem block_lt {e : Env K} {r : ℕ} (hr : r < e.g.nBlocks) : r / e.g.bpp < e.g.nPatches := by
  have : r < e.g.nPatches * e.g.bpp := hr
  have h0 : 0 < e.g.bpp := by
    rcases Nat.eq_zero_or_pos e.g.bpp with h | h
    · rw [h] at this; simp at this
    · exact h
  exact (Nat.div_lt_iff_lt_mul h0).2 this

/-- particles of a patch are in its blocks -/
theorem mem_patchOf {e : Env K} {B : ℕ → List (Sto K)} {r : ℕ} (hr : r < e.g.nBlocks) {q : Sto K} (hq : q ∈ B r) :
    q ∈ patchOf e B (r / e.g.bpp) := by
  have : r < e.g.nPatches * e.g.bpp := hr
  have h0 : 0 < e.g.bpp := by
    rcases Nat.eq_zero_or_pos e.g.bpp with h | h
    · rw [h] at this; simp at this
    · exact h
  refine mem_flat.2 ⟨r % e.g.bpp, Nat.mod_lt _ h0, ?_⟩
  show q ∈ B (r / e.g.bpp * e.g.bpp + r % e.g.bpp)
  rw [Nat.div_add_mod']
  exact hq

theorem patchOf_mem {e : Env K} {B : ℕ → List (Sto K)} {p : ℕ} (hp : p < e.g.nPatches) {q : Sto K} (hq : q ∈ patchOf e B p) :
    ∃ r < e.g.nBlocks, q ∈ B r ∧ r / e.g.bpp = p := by
  obtain ⟨r, hr, hq⟩ := mem_flat.1 hq
  refine ⟨p * e.g.bpp + r, ?_, hq, ?_⟩
  · have : (p + 1) * e.g.bpp ≤ e.g.nPatches * e.g.bpp := Nat.mul_le_mul_right _ hp
    rw [Nat.add_mul, Nat.one_mul] at this
    show _ < e.g.nPatches * e.g.bpp
    omega
  · rw [Nat.mul_comm, Nat.mul_add_div (by omega), Nat.div_eq_of_lt hr, Nat.add_zero]

theorem keys_of_blocks {e : Env K} (hg : e.g.Ok) {B : ℕ → List (Sto K)} (h : Blocks e B) :
    keys e B = flat (fun r => List.replicate (B r).length r) e.g.nBlocks := by
  refine flat_congr fun r hr => ?_
  rw [List.map_congr_left (g := fun _ => r), List.map_const']
  intro q hq
  have h1 := h r hr q hq
  exact code_in (inPatch_of_blockIndex hg h1) h1

/-! ## after sorting -/

open Classical in
theorem buckets_spec {e : Env K} (hg : e.g.Ok) {T : List (ℕ × Sto K)} {C : ℕ → List (Sto K)}
    (hT : T.Perm (flat (fun p => (C p).map fun q => (code e p q.x, q)) e.g.nPatches))
    (hs : T.Pairwise fun a b => a.1 ≤ b.1) :
    ∃ B : ℕ → List (Sto K), Blocks e B ∧
      (∀ p < e.g.nPatches, (patchOf e B p).Perm ((C p).filter fun q => InPatch e q.x)) ∧
      (pre B = pre fun r => T.filter fun a => a.1 = r) ∧
      T.map Prod.snd = flat B e.g.nBlocks ++ (T.filter fun a => e.g.nBlocks ≤ a.1).map Prod.snd ∧
      T.map Prod.fst = keys e B ++ (T.filter fun a => e.g.nBlocks ≤ a.1).map Prod.fst := by
  have hmem : ∀ a ∈ T, ∃ p < e.g.nPatches, a.2 ∈ C p ∧ a.1 = code e p a.2.x := by
    intro a ha
    obtain ⟨p, hp, h⟩ := mem_flat.1 (hT.mem_iff.1 ha)
    obtain ⟨q, hq, rfl⟩ := List.mem_map.1 h
    exact ⟨p, hp, hq, rfl⟩
  have hB : ∀ r < e.g.nBlocks, ∀ q ∈ (T.filter fun a => a.1 = r).map Prod.snd, blockIndex e q.x (r / e.g.bpp) = some r := by
    intro r hr q hq
    obtain ⟨a, ha, rfl⟩ := List.mem_map.1 hq
    obtain ⟨ha, h1⟩ := List.mem_filter.1 ha
    simp only [decide_eq_true_eq] at h1
    obtain ⟨p, hp, h2, h3⟩ := hmem a ha
    have hin : InPatch e a.2.x := by
      by_contra hc
      have := (code_lt hg hp).2 hc
      omega
    obtain ⟨r', r1, r2, r3, _⟩ := blockIndex_some hg hin p
    rw [code_in hin r1] at h3
    have : r' = r := by omega
    subst this
    rw [r3]
    exact r1
  have hpre : (pre fun r => (T.filter fun a => a.1 = r).map Prod.snd) = pre fun r => T.filter fun a => a.1 = r := by
    funext r
    exact pre_congr (by simp)
  refine ⟨fun r => (T.filter fun a : ℕ × Sto K => a.1 = r).map Prod.snd, hB, ?_, hpre, ?_, ?_⟩
  · intro p hp
    have h1 : patchOf e (fun r => (T.filter fun a : ℕ × Sto K => a.1 = r).map Prod.snd) p =
        (flat (fun r => T.filter fun a => a.1 = p * e.g.bpp + r) e.g.bpp).map Prod.snd := by
      rw [flat_map]; rfl
    rw [h1]
    refine ((group_perm T p e.g.bpp).map _).trans ?_
    refine ((hT.filter _).map _).trans (List.Perm.of_eq ?_)
    rw [flat_filter, flat_single hp]
    · rw [List.filter_map, List.map_map]
      have : (Prod.snd ∘ fun q : Sto K => (code e p q.x, q)) = id := rfl
      rw [this, List.map_id]
      refine List.filter_congr fun q _ => ?_
      simp only [Function.comp, decide_eq_decide]
      constructor
      · intro h
        by_contra hc
        have h2 : e.g.nBlocks ≤ code e p q.x := (code_lt hg hp).2 hc
        have h3 : (p + 1) * e.g.bpp ≤ e.g.nPatches * e.g.bpp := Nat.mul_le_mul_right _ hp
        rw [Nat.add_mul, Nat.one_mul] at h3
        have : e.g.nBlocks = e.g.nPatches * e.g.bpp := rfl
        omega
      · intro h
        obtain ⟨r, r1, r2, r3, _⟩ := blockIndex_some hg h p
        rw [code_in h r1]
        have := r2 hp
        have h0 : 0 < e.g.bpp := by
          rcases Nat.eq_zero_or_pos e.g.bpp with h | h
          · simp [Ix.nBlocks, h] at this
          · exact h
        have h1 := Nat.div_add_mod' r e.g.bpp
        have h2 := Nat.mod_lt r h0
        rw [r3] at h1
        omega
    · intro p' hp' hne
      rw [List.filter_eq_nil_iff]
      intro a ha
      obtain ⟨q, hq, rfl⟩ := List.mem_map.1 ha
      simp only [decide_eq_true_eq, not_and]
      intro h1
      by_cases h : InPatch e q.x
      · obtain ⟨r, r1, r2, r3, _⟩ := blockIndex_some hg h p'
        rw [code_in h r1] at h1 ⊢
        intro h2
        apply hne
        rw [← r3]
        exact (Nat.div_eq_of_lt_le (by rw [Nat.mul_comm] at h1; rw [Nat.mul_comm]; exact h1) (by rw [Nat.add_mul]; omega))
      · rw [code_out h]
        have h3 : (p + 1) * e.g.bpp ≤ e.g.nPatches * e.g.bpp := Nat.mul_le_mul_right _ hp
        rw [Nat.add_mul, Nat.one_mul] at h3
        have : e.g.nBlocks = e.g.nPatches * e.g.bpp := rfl
        omega
  · conv_lhs => rw [sorted_flat hs e.g.nBlocks]
    rw [List.map_append, flat_map]
  · conv_lhs => rw [sorted_flat hs e.g.nBlocks]
    rw [List.map_append, flat_map]
    congr 1
    rw [keys_of_blocks hg hB]
    refine flat_congr fun r _ => ?_
    rw [List.length_map, ← List.map_const']
    refine List.map_congr_left fun a ha => ?_
    have := (List.mem_filter.1 ha).2
    simpa using this

/-! ## the relation -/

/-- offsets, number of particles, and the particles of each patch -/
structure Base (e : Env K) (a : Abs K) (B : ℕ → List (Sto K)) (s : State K) : Prop where
  off : s.off = (List.range (e.g.nBlocks + 1)).map (pre B)
  n : s.n = pre B e.g.nBlocks
  cont : ∀ p < e.g.nPatches, a.c p = (patchOf e B p : Multiset (Sto K))

/-- particles in the order of `d_off`, with their block numbers -/
structure Ordered (e : Env K) (B : ℕ → List (Sto K)) (s : State K) : Prop where
  storage : s.storage = flat B e.g.nBlocks
  idx : s.idx = keys e B
  xok : ∀ r < e.g.nBlocks, ∀ q ∈ B r, XOk e q.x
  need : s.need = true → s.n = 0

/-- particles to be put in order by `d_id` -/
structure Unordered (e : Env K) (B : ℕ → List (Sto K)) (s : State K) : Prop where
  blocks : Blocks e B
  need : s.need = true
  len : s.storage.length = s.idx.length
  len' : s.storage.length = s.id.length
  le : s.n ≤ s.storage.length
  zero : s.n = 0 → s.storage = []
  idx : s.idx.take s.n = keys e B
  view : ∀ i : ℕ, i < s.n → ∃ j, s.id[i]? = some j ∧ s.storage[j]? = (flat B e.g.nBlocks)[i]?

/-- what the phase says about the state -/
def PhaseOk (e : Env K) (B : ℕ → List (Sto K)) (s : State K) : Phase → Prop
  | .fresh => Ordered e B s ∧ Blocks e B
  | .pushed => Ordered e B s
  | .exchanged => Unordered e B s
  | .cleared => s.storage = [] ∧ s.n = 0

/-- the state has the particles `a` -/
def Rel (e : Env K) (a : Abs K) (s : State K) : Prop := ∃ B, Base e a B s ∧ PhaseOk e B s a.ph

theorem Base.off_patch {e : Env K} {a : Abs K} {B : ℕ → List (Sto K)} {s : State K} (h : Base e a B s) {p : ℕ}
    (hp : p ≤ e.g.nPatches) : s.off[p * e.g.bpp]? = some (pre (patchOf e B) p) := by
  rw [h.off, List.getElem?_map, List.getElem?_range, Option.map_some, pre_patch]
  have : p * e.g.bpp ≤ e.g.nPatches * e.g.bpp := Nat.mul_le_mul_right _ hp
  show _ < e.g.nPatches * e.g.bpp + 1
  omega

theorem Base.n_patch {e : Env K} {a : Abs K} {B : ℕ → List (Sto K)} {s : State K} (h : Base e a B s) :
    s.n = pre (patchOf e B) e.g.nPatches := by
  rw [h.n, ← pre_patch]; rfl

theorem xok_of_blocks {e : Env K} (hg : e.g.Ok) {B : ℕ → List (Sto K)} (h : Blocks e B) :
    ∀ r < e.g.nBlocks, ∀ q ∈ B r, XOk e q.x := fun r hr q hq =>
  xOk_of_inPatch hg (inPatch_of_blockIndex hg (h r hr q hq))

theorem flat_nil_of_pre {α : Type} {B : ℕ → List α} {N : ℕ} (h : pre B N = 0) : flat B N = [] := by
  rw [← List.length_eq_zero_iff, flat_length, h]

/-- `reorder` puts the particles in order -/
theorem reorder_unordered {e : Env K} (hg : e.g.Ok) {a : Abs K} {B : ℕ → List (Sto K)} {s : State K} (h : Base e a B s)
    (hu : Unordered e B s) : ∃ s', reorder s = some s' ∧ Base e a B s' ∧ Ordered e B s' := by
  obtain ⟨s', e1, e2, e3, e4, e5, e6⟩ := reorder_spec (s := s) (V := flat B e.g.nBlocks) (by rw [flat_length, h.n]) hu.zero
    (by have := hu.le; have := hu.len'; omega) hu.view
  refine ⟨{ s' with need := false }, ?_, ⟨?_, ?_, h.cont⟩, ⟨e2, ?_, xok_of_blocks hg hu.blocks, by simp⟩⟩
  · unfold reorder
    rw [hu.need, e1]
    rfl
  · exact e4.trans h.off
  · exact e5.trans h.n
  · show s'.idx = _
    rw [e3]
    split_ifs with hn
    · have h1 := hu.zero hn
      have h2 := hu.len
      rw [h1] at h2
      have h3 : s.idx = [] := List.length_eq_zero_iff.1 h2.symm
      have h4 := hu.idx
      rw [h3] at h4 ⊢
      simpa using h4
    · rw [← hu.idx]
      unfold resize
      have := hu.le
      have := hu.len
      rw [Nat.sub_eq_zero_of_le (by omega)]
      simp

theorem reorder_ordered {e : Env K} {a : Abs K} {B : ℕ → List (Sto K)} {s : State K} (h : Base e a B s)
    (ho : Ordered e B s) : ∃ s', reorder s = some s' ∧ Base e a B s' ∧ Ordered e B s' := by
  unfold reorder
  cases hn : s.need with
  | false => exact ⟨s, rfl, h, ho⟩
  | true =>
    have h0 := ho.need hn
    refine ⟨{ s with need := false }, ?_, ⟨h.off, h.n, h.cont⟩, ⟨ho.storage, ho.idx, ho.xok, by simp⟩⟩
    unfold reorderById
    rw [if_pos h0]
    rfl

end Psc.CudaPrts
