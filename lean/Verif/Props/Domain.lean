import Verif.Lemmas.Domain
import Verif.Spec.Domain

/-!
# C24, C25, C26: space filling curves, patch ownership, neighbours
-/

namespace Psc.Props

open Domain

/-! ## C24 -/

/-- **C24.** Every patch position maps to an index below the number of patches and back to itself. -/
theorem C24_sfc_roundtrip (c : Curve) (np p : P3) (hs : sfc_setup_ok c np = true) (hp : ∀ d, p d < np d) :
    sfc_idx3_to_idx c np p < np 0 * np 1 * np 2 ∧
    sfc_idx_to_idx3 c np (sfc_idx3_to_idx c np p) = p :=
  ⟨sfc_lt hs hp, sfc_left hs hp⟩

/-- **C24.** Every index below the number of patches maps to a position of the grid and back to itself. -/
theorem C24_sfc_roundtrip_inv (c : Curve) (np : P3) (i : ℕ) (hs : sfc_setup_ok c np = true)
    (hi : i < np 0 * np 1 * np 2) :
    (∀ d, sfc_idx_to_idx3 c np i d < np d) ∧ sfc_idx3_to_idx c np (sfc_idx_to_idx3 c np i) = i :=
  ⟨(sfc_right hs hi).2, (sfc_right hs hi).1⟩

/-- **C24.** Hence the curve visits every patch position exactly once. -/
theorem C24_sfc_unique (c : Curve) (np p : P3) (hs : sfc_setup_ok c np = true) (hp : ∀ d, p d < np d) :
    ∃! i, i < np 0 * np 1 * np 2 ∧ sfc_idx_to_idx3 c np i = p := by
  refine ⟨sfc_idx3_to_idx c np p, ⟨sfc_lt hs hp, sfc_left hs hp⟩, ?_⟩
  rintro i ⟨hi, rfl⟩
  exact (sfc_right hs hi).1.symm

/-- **C24.** The Morton curve's assertion passes exactly on grids whose extents are powers of two. -/
theorem C24_morton_setup (np : P3) :
    sfc_setup_ok .morton np = true ↔ ∀ d, ∃ k, np d = 2 ^ k := by
  simp only [sfc_setup_ok, decide_eq_true_eq]
  constructor
  · intro h d; exact ⟨_, by have := h d; rwa [Nat.one_shiftLeft] at this⟩
  · intro h d
    obtain ⟨k, hk⟩ := h d
    rw [hk, morton_nbits_pow, Nat.one_shiftLeft]

/-- **C24.** The Hilbert curve is set up exactly if its bits fit: with `k` bits for the largest extent, and as many for each
direction with more than one patch, at most 30 in total. -/
theorem C24_hilbert_setup (np : P3) :
    sfc_setup_ok .hilbert np = true ↔
      ∃ k, (∀ d, np d ≤ 2 ^ k) ∧ (Finset.univ.filter fun d => 1 < np d).card * k ≤ 30 := by
  simp only [sfc_setup_ok, decide_eq_true_eq, Hilbert.totalBits, Hilbert.dims_length]
  constructor
  · intro h; exact ⟨_, Hilbert.le_two_pow_max np, by omega⟩
  · rintro ⟨k, h1, h2⟩
    have := Nat.mul_le_mul_left (Finset.univ.filter fun d => 1 < np d).card (Hilbert.nbitsMax_le h1)
    omega

/-- **C24.** `mrc_hilbert_i2c` and `mrc_hilbert_c2i` are inverse to each other, between positions on the curve and points of
the cube, for any number of dimensions and any number of bits (that fit into the integers used). -/
theorem C24_hilbert_curve (nDims nBits : ℕ) (hn : 0 < nDims) (hb : 0 < nBits) :
    (∀ index < 2 ^ (nDims * nBits), (∀ d < nDims, Hilbert.i2c nDims nBits index d < 2 ^ nBits) ∧
      Hilbert.c2i nDims nBits (Hilbert.i2c nDims nBits index) = index) ∧
    ∀ coord : ℕ → ℕ, (∀ d < nDims, coord d < 2 ^ nBits) → Hilbert.c2i nDims nBits coord < 2 ^ (nDims * nBits) ∧
      ∀ d < nDims, Hilbert.i2c nDims nBits (Hilbert.c2i nDims nBits coord) d = coord d := by
  by_cases h2 : 2 ≤ nDims
  · exact ⟨fun i hi => ⟨fun d _ => Hilbert.i2c_lt h2 hb, Hilbert.c2i_i2c h2 hb hi⟩,
      fun c hc => ⟨Hilbert.c2i_lt h2 hb hc, fun d hd => Hilbert.i2c_c2i h2 hb hc hd⟩⟩
  · have h1 : nDims = 1 := by omega
    subst h1
    simp only [Hilbert.c2i_one h2, Hilbert.i2c_one h2, one_mul]
    exact ⟨fun i hi => ⟨fun _ _ => hi, trivial⟩,
      fun c hc => ⟨hc 0 (by omega), fun d hd => by rw [show d = 0 by omega]⟩⟩

example : sfc_setup_ok .hilbert ![3, 1, 5] = true := (C24_hilbert_setup _).2 ⟨3, by decide, by decide⟩

example : ¬ sfc_setup_ok .hilbert ![2048, 2, 2] = true := by
  rw [C24_hilbert_setup]
  rintro ⟨k, h1, h2⟩
  have h3 : 2 ^ 11 ≤ 2 ^ k := h1 0
  rw [Nat.pow_le_pow_iff_right (by norm_num)] at h3
  have h4 : (Finset.univ.filter fun d => 1 < (![2048, 2, 2] : P3) d).card = 3 := by decide
  rw [h4] at h2
  omega

example : (List.range 9).map (sfc_idx_to_idx3 .hilbert ![3, 1, 3]) =
    [![0,0,0], ![0,0,1], ![1,0,1], ![1,0,0], ![2,0,0], ![2,0,1], ![2,0,2], ![1,0,2], ![0,0,2]] := by decide +kernel

example : sfc_setup_ok .morton ![4, 2, 1] = true := (C24_morton_setup _).2 fun d => by
  fin_cases d
  · exact ⟨2, rfl⟩
  · exact ⟨1, rfl⟩
  · exact ⟨0, rfl⟩

example : (List.range 8).map (bydim_idx_to_idx3 ![4, 2, 1]) =
    [![0,0,0], ![1,0,0], ![2,0,0], ![3,0,0], ![0,1,0], ![1,1,0], ![2,1,0], ![3,1,0]] := by decide

example : (List.range 8).map (morton_idx_to_idx3 ![2, 1, 0]) =
    [![0,0,0], ![1,0,0], ![0,1,0], ![1,1,0], ![2,0,0], ![3,0,0], ![2,1,0], ![3,1,0]] := by decide

/-! ## C25 -/

/-- **C25.** Looking up the owner of the `p`-th patch of rank `r` gives `(r, p)`. -/
theorem C25_owner_of_local (counts : List ℕ) (r p : ℕ) (hr : r < counts.length) (hp : p < counts.getD r 0) :
    gpatch_off_all counts r + p < counts.sum ∧
    gpatch_to_rank_patch counts (gpatch_off_all counts r + p) = some (r, p) := by
  refine ⟨?_, g2rp_of counts hr hp⟩
  rw [← off_sum]
  have := off_mono counts (show r + 1 ≤ counts.length by omega)
  rw [off_succ] at this
  exact lt_of_lt_of_le (Nat.add_lt_add_left hp _) this

/-- **C25.** Every global patch belongs to exactly one rank and local index; the lookup finds it. -/
theorem C25_partition (counts : List ℕ) (gp : ℕ) (h : gp < counts.sum) :
    ∃! rp : ℕ × ℕ, (rp.1 < counts.length ∧ rp.2 < counts.getD rp.1 0 ∧
      gpatch_off_all counts rp.1 + rp.2 = gp) := by
  obtain ⟨r, p, hr, hp, rfl⟩ := exists_owner counts h
  refine ⟨(r, p), ⟨hr, hp, rfl⟩, ?_⟩
  rintro ⟨r', p'⟩ ⟨hr', hp', he⟩
  have h1 := g2rp_of counts hr hp
  have h2 := g2rp_of counts hr' hp'
  rw [he, h1] at h2
  exact (Option.some.inj h2).symm

/-- **C25.** The lookup returns the owner, and stops the program (assertion) for any other number. -/
theorem C25_lookup (counts : List ℕ) (gp r p : ℕ) :
    gpatch_to_rank_patch counts gp = some (r, p) ↔
      r < counts.length ∧ p < counts.getD r 0 ∧ gpatch_off_all counts r + p = gp := by
  constructor
  · intro h
    by_cases hgp : gp < counts.sum
    · obtain ⟨r', p', hr, hp, rfl⟩ := exists_owner counts hgp
      rw [g2rp_of counts hr hp] at h
      simp only [Option.some.injEq, Prod.mk.injEq] at h
      obtain ⟨rfl, rfl⟩ := h
      exact ⟨hr, hp, rfl⟩
    · rw [g2rp_none counts (by omega)] at h; exact absurd h (by simp)
  · rintro ⟨hr, hp, rfl⟩; exact g2rp_of counts hr hp

/-- **C25.** The default mapping distributes exactly all patches, over `size` ranks, with counts differing by
at most one. -/
theorem C25_uniform (n size : ℕ) (hs : 0 < size) :
    (uniform_counts n size).length = size ∧ (uniform_counts n size).sum = n ∧
    ∀ c ∈ uniform_counts n size, c = n / size ∨ c = n / size + 1 := by
  refine ⟨by simp [uniform_counts], ?_, ?_⟩
  · unfold uniform_counts
    have h : ∀ m q r : ℕ, ((List.range m).map fun i => q + if i < r then 1 else 0).sum = m * q + min m r := by
      intro m q r
      induction m with
      | zero => simp
      | succ m ih =>
        rw [List.range_succ, List.map_append, List.sum_append, ih]
        simp only [List.map_cons, List.map_nil, List.sum_cons, List.sum_nil, add_zero]
        have : min (m + 1) r = min m r + if m < r then 1 else 0 := by split_ifs <;> omega
        rw [this]; ring
    rw [h, min_eq_right (Nat.mod_lt _ hs).le, mul_comm]
    rw [mul_comm]; exact Nat.div_add_mod n size
  · intro c hc
    simp only [uniform_counts, List.mem_map, List.mem_range] at hc
    obtain ⟨i, _, rfl⟩ := hc
    split_ifs <;> simp

/-- a rank may own no patch -/
example : gpatch_to_rank_patch [2, 0, 3] 2 = some (2, 0) := by decide
example : uniform_counts 7 3 = [3, 2, 2] := by decide

/-- **C24, C25.** In a valid decomposition, patch position ↔ (rank, local patch) is a bijection. -/
theorem C25_idx3_owner (D : Decomp) (hD : D.Valid) (r p : ℕ) (h : D.Has r p) :
    D.InGrid (D.idx3 r p) ∧ D.owner (D.idx3 r p) = some (r, p) := by
  have hlt := (C25_owner_of_local D.counts r p h.1 h.2).1
  rw [hD.sum] at hlt
  have hr := sfc_right hD.curve_ok hlt
  refine ⟨hr.2, ?_⟩
  unfold Decomp.owner Decomp.idx3
  rw [hr.1]
  exact g2rp_of D.counts h.1 h.2

/-- **C24, C25.** ... in the other direction. -/
theorem C25_owner_idx3 (D : Decomp) (hD : D.Valid) (idx : P3) (hi : D.InGrid idx) :
    ∃ r p, D.owner idx = some (r, p) ∧ D.Has r p ∧ D.idx3 r p = idx := by
  have hlt := sfc_lt hD.curve_ok hi
  rw [← hD.sum] at hlt
  obtain ⟨r, p, hr, hp, he⟩ := exists_owner D.counts hlt
  refine ⟨r, p, ?_, ⟨hr, hp⟩, ?_⟩
  · unfold Decomp.owner; rw [← he]; exact g2rp_of D.counts hr hp
  · unfold Decomp.idx3; rw [he]; exact sfc_left hD.curve_ok hi

/-! ## C26 -/

/-- **C26.** The neighbour position is the position one step away, wrapped in periodic directions; there is
none iff a non-periodic direction leaves the grid. -/
theorem C26_neighbour_position (D : Decomp) (idx : P3) (dir : I3) (hi : D.InGrid idx) (hd : IsDir dir) :
    (∀ q, D.neiIdx idx dir = some q → D.InGrid q ∧ ∀ d, StepTo (D.np d) (D.bc d) (idx d) (dir d) (q d)) ∧
    (D.neiIdx idx dir = none ↔
      ∃ d, D.bc d = false ∧ ((idx d : ℤ) + dir d < 0 ∨ (D.np d : ℤ) ≤ idx d + dir d)) := by
  constructor
  · intro q hq
    rw [neiIdx_eq_some] at hq
    refine ⟨fun d => ((nei1_eq_some (hi d) (hd d)).1 (hq d)).1, fun d => ?_⟩
    have h := ((nei1_eq_some (hi d) (hd d)).1 (hq d)).2
    rcases h with h | ⟨hp, h | h⟩
    · exact Or.inl h
    · exact Or.inr ⟨hp, Or.inl h.1⟩
    · exact Or.inr ⟨hp, Or.inr h.1⟩
  · constructor
    · intro hn
      by_contra hc
      push Not at hc
      have : ∀ d, ∃ j, nei1 (D.np d) (D.bc d) (idx d) (dir d) = some j := by
        intro d
        have h1 := hi d; have h2 := hd d
        by_cases hlo : (idx d : ℤ) + dir d < 0
        · have hb : D.bc d = true := by
            by_contra hb
            have := hc d (by simpa using hb); omega
          exact ⟨((idx d : ℤ) + dir d + D.np d).toNat,
            (nei1_eq_some h1 h2).2 ⟨by omega, Or.inr ⟨hb, Or.inl (by omega)⟩⟩⟩
        · by_cases hhi : (D.np d : ℤ) ≤ idx d + dir d
          · have hb : D.bc d = true := by
              by_contra hb
              have := hc d (by simpa using hb); omega
            exact ⟨((idx d : ℤ) + dir d - D.np d).toNat,
              (nei1_eq_some h1 h2).2 ⟨by omega, Or.inr ⟨hb, Or.inr (by omega)⟩⟩⟩
          · exact ⟨((idx d : ℤ) + dir d).toNat, (nei1_eq_some h1 h2).2 ⟨by omega, Or.inl (by omega)⟩⟩
      choose q hq using this
      rw [neiIdx_eq_some.2 hq] at hn
      exact absurd hn (by simp)
    · rintro ⟨d, hb, h⟩
      by_contra hn
      obtain ⟨q, hq⟩ := Option.ne_none_iff_exists'.1 hn
      have := (nei1_eq_some (hi d) (hd d)).1 (neiIdx_eq_some.1 hq d)
      rw [hb] at this
      simp only [Bool.false_eq_true, false_and, or_false] at this
      omega

/-- **C26.** Neighbour positions are symmetric. -/
theorem C26_position_symm (D : Decomp) (idx q : P3) (dir : I3) (hi : D.InGrid idx) (hd : IsDir dir)
    (h : D.neiIdx idx dir = some q) : D.neiIdx q (fun d => -dir d) = some idx := by
  rw [neiIdx_eq_some] at h ⊢
  exact fun d => nei1_symm (hi d) (hd d) (h d)

/-- **C26.** If `(r', p')` is the neighbour of `(r, p)` in direction `dir`, it is an existing patch and
`(r, p)` is its neighbour in direction `-dir`. -/
theorem C26_neighbour_symm (D : Decomp) (hD : D.Valid) (r p r' p' : ℕ) (dir : I3) (hrp : D.Has r p)
    (hd : IsDir dir) (h : D.nei r p dir = some (r', p')) :
    D.Has r' p' ∧ D.nei r' p' (fun d => -dir d) = some (r, p) := by
  obtain ⟨hin, how⟩ := C25_idx3_owner D hD r p hrp
  unfold Decomp.nei at h
  cases hn : D.neiIdx (D.idx3 r p) dir with
  | none => rw [hn] at h; exact absurd h (by simp)
  | some q =>
    rw [hn] at h
    simp only [Option.bind_some] at h
    have hq := ((C26_neighbour_position D _ dir hin hd).1 q hn).1
    obtain ⟨r'', p'', ho, hhas, hidx⟩ := C25_owner_idx3 D hD q hq
    rw [ho] at h
    simp only [Option.some.injEq, Prod.mk.injEq] at h
    obtain ⟨rfl, rfl⟩ := h
    refine ⟨hhas, ?_⟩
    unfold Decomp.nei
    rw [hidx, C26_position_symm D _ _ dir hin hd hn]
    exact how

/-- **C26.** A patch has a neighbour in direction `dir` exactly when every direction component is periodic or
stays inside the patch grid. -/
theorem C26_neighbour_exists (D : Decomp) (hD : D.Valid) (r p : ℕ) (dir : I3) (hrp : D.Has r p)
    (hd : IsDir dir) :
    (∃ r' p', D.nei r p dir = some (r', p')) ↔
      ∀ d, D.bc d = true ∨
        (0 ≤ (D.idx3 r p d : ℤ) + dir d ∧ (D.idx3 r p d : ℤ) + dir d < D.np d) := by
  have hin := (C25_idx3_owner D hD r p hrp).1
  have hpos := C26_neighbour_position D _ dir hin hd
  constructor
  · rintro ⟨r', p', h⟩ d
    by_contra hc
    push Not at hc
    have : D.neiIdx (D.idx3 r p) dir = none :=
      hpos.2.2 ⟨d, by simpa using hc.1, by have := hc.2; omega⟩
    rw [Decomp.nei, this] at h
    exact absurd h (by simp)
  · intro h
    cases hn : D.neiIdx (D.idx3 r p) dir with
    | none =>
      obtain ⟨d, hb, hc⟩ := hpos.2.1 hn
      rcases h d with h | h
      · rw [hb] at h; exact absurd h (by simp)
      · omega
    | some q =>
      obtain ⟨r', p', ho, _, _⟩ := C25_owner_idx3 D hD q (hpos.1 q hn).1
      exact ⟨r', p', by rw [Decomp.nei, hn]; exact ho⟩

/-- a 2×2×1 patch grid, periodic in x only, on two ranks -/
def exDecomp : Decomp := ⟨![2, 2, 1], ![true, false, false], .bydim, [1, 3]⟩

theorem exDecomp_valid : exDecomp.Valid := ⟨rfl, by decide⟩

example : exDecomp.Has 1 2 := by constructor <;> decide
/-- the last patch's neighbour across the periodic boundary in x -/
example : exDecomp.nei 1 2 ![1, 0, 0] = some (1, 1) := by decide
example : exDecomp.nei 1 2 ![1, -1, 0] = some (0, 0) := by decide
example : exDecomp.nei 1 2 ![0, 1, 0] = none := by decide

end Psc.Props
