import Verif.Spec.CudaPic
import Verif.Lemmas.CudaPrtsExch
import Verif.Lemmas.CudaBndRun
import Verif.Lemmas.Serial

/-! Lemmas for runs on the GPU: states of the particles, blocks, memory -/

namespace Psc.CudaPic

open Domain Ddc FieldStep Cuda CudaFlds CudaBnd Spec.CudaFlds Spec.CudaBnd Spec.CudaPic

/-! ## particles -/

section
variable {K : Type} [Field K] [LinearOrder K] [IsStrictOrderedRing K] [FloorRing K]

theorem run_snoc {e : CudaPrts.Env K} {s s₁ s' : CudaPrts.State K} {l : List (CudaPrts.In K × CudaPrts.Out K)}
    (h : CudaPrts.Run e s l s₁) {i : CudaPrts.In K} {o : CudaPrts.Out K} (hs : CudaPrts.Step e s₁ i o s') :
    CudaPrts.Run e s (l ++ [(i, o)]) s' := by
  induction h with
  | nil s => exact .cons hs (.nil _)
  | cons h _ ih => exact .cons h (ih hs)

theorem allows_snoc {e : CudaPrts.Env K} (l : List (CudaPrts.In K)) (i : CudaPrts.In K) (a : CudaPrts.Abs K)
    (h : CudaPrts.Allows e a l) (hi : CudaPrts.Allowed e (CudaPrts.afterAll e a l) i) : CudaPrts.Allows e a (l ++ [i]) := by
  induction l generalizing a with
  | nil => exact ⟨hi, trivial⟩
  | cons j l ih => exact ⟨h.1, ih _ h.2 hi⟩

theorem Reach.step {e : CudaPrts.Env K} {s s' : CudaPrts.State K} {a : CudaPrts.Abs K} (h : Reach e s a)
    {i : CudaPrts.In K} {o : CudaPrts.Out K} (ha : CudaPrts.Allowed e a i) (hs : CudaPrts.Step e s i o s') :
    Reach e s' (CudaPrts.after e a i) := by
  obtain ⟨l, h1, h2, rfl⟩ := h
  refine ⟨l ++ [(i, o)], run_snoc h1 hs, ?_, ?_⟩
  · rw [List.map_append]
    exact allows_snoc _ _ _ h2 ha
  · unfold CudaPrts.afterAll
    rw [List.map_append, List.foldl_append]
    rfl

theorem Reach.rel {e : CudaPrts.Env K} (hg : e.g.Ok) {s : CudaPrts.State K} {a : CudaPrts.Abs K} (h : Reach e s a) :
    CudaPrts.Rel e a s := by
  obtain ⟨l, h1, h2, rfl⟩ := h
  exact (CudaPrts.run_ok hg (CudaPrts.rel_init e) h1 h2).2

/-- there are no particles if and only if no patch has any -/
theorem n_zero {e : CudaPrts.Env K} {s : CudaPrts.State K} {a : CudaPrts.Abs K} (h : CudaPrts.Rel e a s) :
    s.n = 0 ↔ ∀ p < e.g.nPatches, a.c p = 0 := by
  obtain ⟨B, hb, -⟩ := h
  rw [hb.n_patch]
  constructor
  · intro h p hp
    rw [hb.cont p hp, CudaPrts.nil_of_pre h hp]
    rfl
  · intro h
    have : ∀ p < e.g.nPatches, CudaPrts.patchOf e B p = [] := fun p hp => by
      have := h p hp
      rw [hb.cont p hp] at this
      exact Multiset.coe_eq_zero _ |>.1 this
    rw [CudaPrts.pre_congr (C := fun _ => ([] : List (CudaPrts.Sto K))) fun p hp => by rw [this p hp], CudaPrts.pre_nil]

end

/-! ## blocks -/

variable {X : Setup} {C : Call → Prop}

theorem gdimX_ne (hX : Fits X C) (r : ℕ) : (X.env r).g.gdimX ≠ 1 := by
  have h := hX.fit.gdims 0 (by rw [hX.cfg]; rfl)
  have e : X.S.c.gdims 0 = X.S.c.D.np 0 * X.S.c.ldims 0 := rfl
  rw [e] at h
  show (X.S.c.D.np 0 * X.S.c.ldims 0).toNat ≠ 1
  omega

theorem env_ok (hX : Fits X C) (r : ℕ) : (X.env r).g.Ok :=
  ⟨fun d => (hX.blocks d).1, fun d => (hX.blocks d).2, fun h => absurd h (gdimX_ne hX r)⟩

theorem blocks_eq (hX : Fits X C) (r : ℕ) : blocks X r = (simple (X.env r).g).flatten.flatten := by
  unfold blocks CudaPrts.launches
  rw [if_neg (gdimX_ne hX r)]

theorem bMx_eq (hX : Fits X C) (r : ℕ) (d : Fin 3) : (X.env r).g.bMx d = (X.S.c.ldims d).toNat / X.bs d := by
  unfold Ix.bMx
  rw [if_neg fun h => gdimX_ne hX r h.2]
  rfl

theorem block_bounds (hX : Fits X C) {r : ℕ} {b : Block} (hb : b ∈ blocks X r) :
    b.p < X.S.c.D.nr_patches r ∧ ∀ d, ((b.ci0 d : ℤ) + X.bs d) ≤ X.S.c.ldims d := by
  rw [blocks_eq hX] at hb
  unfold simple dim3 at hb
  simp only [List.flatten_cons, List.flatten_nil, List.append_nil, List.mem_flatten, List.mem_map] at hb
  obtain ⟨l, ⟨i, hi, rfl⟩, hb⟩ := hb
  rw [List.mem_singleton] at hb
  subst hb
  obtain ⟨i0, i1, i2⟩ := i
  simp only [List.mem_product, List.mem_range, bMx_eq hX] at hi
  obtain ⟨h0, h1, h2⟩ := hi
  have key : ∀ (d : Fin 3) (j : ℕ), j < (X.S.c.ldims d).toNat / X.bs d → ((j * X.bs d : ℕ) : ℤ) + X.bs d ≤ X.S.c.ldims d := by
    intro d j hj
    have hp := hX.fit.pos d
    have h3 : (j + 1) * X.bs d ≤ (X.S.c.ldims d).toNat := by
      refine le_trans (Nat.mul_le_mul_right _ (show j + 1 ≤ _ from hj)) (Nat.div_mul_le_self _ _)
    rw [Nat.add_mul, one_mul] at h3
    omega
  have hz : 0 < (X.S.c.ldims 2).toNat / X.bs 2 := by
    rcases Nat.eq_zero_or_pos ((X.S.c.ldims 2).toNat / X.bs 2) with h | h
    · rw [h, Nat.zero_mul] at h2; omega
    · exact h
  refine ⟨?_, fun d => ?_⟩
  · show i2 / (X.env r).g.bMx 2 < _
    rw [bMx_eq hX, Nat.div_lt_iff_lt_mul hz, Nat.mul_comm]
    exact h2
  · fin_cases d
    · exact key 0 i0 h0
    · exact key 1 i1 h1
    · refine key 2 (i2 % (X.env r).g.bMx 2) ?_
      rw [bMx_eq hX]
      exact Nat.mod_lt _ hz

theorem mapM_inv {α β : Type} {f : α → Option β} : ∀ {l : List α} {u : List β}, l.mapM f = some u →
    List.Forall₂ (fun a b => f a = some b) l u
  | [], u, h => by
    rw [List.mapM_nil] at h
    cases h
    exact .nil
  | a :: l, u, h => by
    rw [List.mapM_cons] at h
    obtain ⟨b, h1, h⟩ := Option.bind_eq_some_iff.1 h
    obtain ⟨v, h2, h⟩ := Option.bind_eq_some_iff.1 h
    cases h
    exact .cons h1 (mapM_inv h2)

theorem mapM_mem {α β : Type} {f : α → Option β} {l : List α} {u : List β} (h : l.mapM f = some u) {b : β} (hb : b ∈ u) :
    ∃ a ∈ l, f a = some b := by
  replace h := mapM_inv h
  induction h with
  | nil => simp at hb
  | cons h _ ih =>
    rcases List.mem_cons.1 hb with rfl | hb
    · exact ⟨_, List.mem_cons_self, h⟩
    · obtain ⟨a, ha, e⟩ := ih hb
      exact ⟨a, List.mem_cons_of_mem _ ha, e⟩

theorem work_block {r : ℕ} {s : CudaPrts.State ℝ} {work : List (Block × ℕ)}
    (hw : CudaPrts.IsWork (X.env r) s work) {w : Block × ℕ} (h : w ∈ work) : w.1 ∈ blocks X r := by
  obtain ⟨l, h1, h2⟩ := hw
  have h := h2.subset h
  unfold kernelWork at h1
  obtain ⟨ws, e1, e2⟩ := Option.bind_eq_some_iff.1 h1
  rw [Option.some.injEq] at e2
  subst e2
  obtain ⟨u, hu, h⟩ := List.mem_flatten.1 h
  obtain ⟨b, hb, e⟩ := mapM_mem e1 hu
  unfold blockWork at e
  obtain ⟨ns, -, e⟩ := Option.bind_eq_some_iff.1 e
  rw [Option.some.injEq] at e
  rw [← e] at h
  obtain ⟨n, -, rfl⟩ := List.mem_map.1 h
  exact hb

/-! ## memory -/

theorem place_eq {L : Layout} {p : ℕ} {c : ℕ × I3} (h : Has L p c) : place L p c = (pl L p c : ℤ) := by
  have h0 := h.1 0; have h1 := h.1 1; have h2 := h.1 2
  unfold place pl Layout.at Layout.off cellOf
  push_cast
  rw [Int.toNat_of_nonneg (by omega), Int.toNat_of_nonneg (by omega), Int.toNat_of_nonneg (by omega)]

theorem valAt_stores {L : Layout} {S : RankState ℝ} {M : List ℝ} (hM : Stores L S M) {p : ℕ} {c : ℕ × I3} (h : Has L p c) :
    valAt M (place L p c) = some (S p c) := by
  unfold valAt nat?
  rw [place_eq h, if_pos (by omega), Option.bind_some, Int.toNat_natCast, get_pl hM h]

theorem zeroJ_stores {L : Layout} {S : RankState ℝ} {M : List ℝ} (hM : Stores L S M) :
    Stores L (fun p mn => if mn.1 < JXI + 3 then 0 else S p mn) (zeroJ L M) := by
  refine ⟨by unfold zeroJ; rw [List.length_mapIdx]; exact hM.1, fun p hp m hm n hn => ?_⟩
  unfold zeroJ
  rw [List.getElem?_mapIdx, hM.2 p hp m hm n hn, Option.map_some]
  have hb : ∀ d, n d < L.im d := fun d => by have := hn d; unfold Layout.im; omega
  congr 2
  have h0 := hb 0; have h1 := hb 1; have h2 := hb 2
  rw [Nat.add_mul_div_left _ _ (by omega), Nat.div_eq_of_lt h0, Nat.zero_add, Nat.add_mul_div_left _ _ (by omega),
    Nat.div_eq_of_lt h1, Nat.zero_add, Nat.add_mul_div_left _ _ (by omega), Nat.div_eq_of_lt h2, Nat.zero_add,
    Nat.add_mul_mod_self_left, Nat.mod_eq_of_lt hm]

end Psc.CudaPic
