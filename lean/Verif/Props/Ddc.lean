import Verif.Lemmas.Phys

/-!
# C27, C28, C29: ghost cell exchange

`σ r p (m, n)` is component `m` of cell `n` of the `p`-th patch of rank `r` before the exchange.
-/

namespace Psc.Props

open Domain Ddc

variable {K : Type}

/-! ## C29: message layout -/

/-- What "the receiver reads what the sender wrote" means for one pair of entries: the sender's patch and the
receiver's patch name each other as neighbours, the region sizes agree in every direction, and the receiver's
region is the sender's region seen from the receiving patch. -/
def SamePiece (c : Cfg) (se re : Entry) : Prop :=
  se.nei_patch = re.patch ∧ re.nei_patch = se.patch ∧
  (∀ d, se.box.ilo d ≤ se.box.ihi d ∧ re.box.ihi d - re.box.ilo d = se.box.ihi d - se.box.ilo d) ∧
  ∃ dir, IsDir dir ∧ se.dir1 = dir2idx dir ∧ re.dir1 = dir2idx (fun d => -dir d) ∧
    ∀ d, re.box.ilo d = se.box.ilo d - dir d * c.ldims d

private theorem layout {c : Cfg} (hc : c.Ok) {sreg rreg : I3 → Box} (hR : Regs sreg rreg c.ldims) (src dst : ℕ) :
    ∃ l, recv_entries rreg c.D dst src = some l ∧
      List.Forall₂ (SamePiece c) (entries sreg c.D src dst) l := by
  refine ⟨_, recv_entries_eq hc.valid dst src, (matched sreg rreg c.D src dst).imp ?_⟩
  rintro se re ⟨p, q, dir, _, hd, hz, _, rfl, rfl⟩
  have hs := hR.shift dir hd hz
  refine ⟨rfl, rfl, fun d => ⟨hR.ok dir hd hz d, ?_⟩, dir, hd, rfl, rfl, fun d => ?_⟩
  · simp only [hs, Box.shift]; ring
  · simp only [hs, Box.shift]; ring

/-- **C29.** For every pair of ranks, the receive pattern for filling ghosts is set up, and the `i`-th piece
the sender packs is the `i`-th piece the receiver unpacks. -/
theorem C29_fill_layout (c : Cfg) (hc : c.Ok) (src dst : ℕ) :
    ∃ l, recv_entries (outside c) c.D dst src = some l ∧
      List.Forall₂ (SamePiece c) (entries (inside c) c.D src dst) l :=
  layout hc (regs_fill hc) src dst

/-- **C29.** The same for adding ghosts. -/
theorem C29_add_layout (c : Cfg) (hc : c.Ok) (src dst : ℕ) :
    ∃ l, recv_entries (inside c) c.D dst src = some l ∧
      List.Forall₂ (SamePiece c) (entries (outside c) c.D src dst) l :=
  layout hc (regs_add hc) src dst

/-- **C29.** Within a piece, the loops visit the cells in the order of their buffer offsets, without gaps. -/
theorem C29_buf3 (mb me : ℕ) (b : Box) (i : ℕ) (h : i < (cells mb me b).length) :
    buf3 mb b (cells mb me b)[i] = i := by
  let kx := (b.ihi 0 - b.ilo 0).toNat
  let ky := (b.ihi 1 - b.ilo 1).toNat
  let kz := (b.ihi 2 - b.ilo 2).toNat
  let fx : ℕ → ℤ → ℤ → List (ℕ × I3) := fun m z y =>
    (Fields.rng (b.ilo 0) (b.ihi 0)).map fun x => (m, ![x, y, z])
  let fy : ℕ → ℤ → List (ℕ × I3) := fun m z => (Fields.rng (b.ilo 1) (b.ihi 1)).flatMap fun y => fx m z y
  let fz : ℕ → List (ℕ × I3) := fun m => (Fields.rng (b.ilo 2) (b.ihi 2)).flatMap fun z => fy m z
  have lx : ∀ m z y, (fx m z y).length = kx := by intro m z y; simp [fx, kx, length_rng]
  have ly : ∀ m z, (fy m z).length = ky * kx := by
    intro m z
    simp [fy, List.length_flatMap, lx, ky, length_rng]
  have lz : ∀ m, (fz m).length = kz * (ky * kx) := by
    intro m
    simp [fz, List.length_flatMap, ly, kz, length_rng]
  obtain ⟨h1, h2, h3⟩ := getElem_flatMap_const (List.range' mb (me - mb)) fz _ (fun m _ => lz m) i h
  obtain ⟨h4, h5, h6⟩ := getElem_flatMap_const (Fields.rng (b.ilo 2) (b.ihi 2))
    (fun z => fy ((List.range' mb (me - mb))[i / (kz * (ky * kx))]) z) _ (fun z _ => ly _ z) _ h2
  obtain ⟨h7, h8, h9⟩ := getElem_flatMap_const (Fields.rng (b.ilo 1) (b.ihi 1))
    (fun y => fx ((List.range' mb (me - mb))[i / (kz * (ky * kx))])
      ((Fields.rng (b.ilo 2) (b.ihi 2))[i % (kz * (ky * kx)) / (ky * kx)]) y) _ (fun y _ => lx _ _ y) _ h5
  have e : (cells mb me b)[i] = (fx ((List.range' mb (me - mb))[i / (kz * (ky * kx))])
      ((Fields.rng (b.ilo 2) (b.ihi 2))[i % (kz * (ky * kx)) / (ky * kx)])
      ((Fields.rng (b.ilo 1) (b.ihi 1))[i % (kz * (ky * kx)) % (ky * kx) / kx]))[
        i % (kz * (ky * kx)) % (ky * kx) % kx] := by
    rw [← h9]; exact h3.trans h6
  rw [e]
  rw [length_rng] at h4 h7
  have px : 0 < kx := by
    rw [lx] at h8; omega
  have py : 0 < ky := by
    by_contra hc
    have : ky = 0 := by omega
    rw [ly, this] at h5; omega
  have pz : 0 < kz := by
    by_contra hc
    have : kz = 0 := by omega
    rw [lz, this] at h2; omega
  have ex : b.ihi 0 - b.ilo 0 = kx := by simp only [kx] at px ⊢; omega
  have ey : b.ihi 1 - b.ilo 1 = ky := by simp only [ky] at py ⊢; omega
  have ez : b.ihi 2 - b.ilo 2 = kz := by simp only [kz] at pz ⊢; omega
  have em : (fx ((List.range' mb (me - mb))[i / (kz * (ky * kx))])
      ((Fields.rng (b.ilo 2) (b.ihi 2))[i % (kz * (ky * kx)) / (ky * kx)])
      ((Fields.rng (b.ilo 1) (b.ihi 1))[i % (kz * (ky * kx)) % (ky * kx) / kx]))[
        i % (kz * (ky * kx)) % (ky * kx) % kx] =
      (mb + i / (kz * (ky * kx)), ![b.ilo 0 + (i % (kz * (ky * kx)) % (ky * kx) % kx : ℕ),
        b.ilo 1 + (i % (kz * (ky * kx)) % (ky * kx) / kx : ℕ),
        b.ilo 2 + (i % (kz * (ky * kx)) / (ky * kx) : ℕ)]) := by
    simp [fx, Fields.rng]
  rw [em]
  unfold buf3
  simp only [ex, ey, ez]
  have a1 := Nat.div_add_mod i (kz * (ky * kx))
  have a2 := Nat.div_add_mod (i % (kz * (ky * kx))) (ky * kx)
  have a3 := Nat.div_add_mod (i % (kz * (ky * kx)) % (ky * kx)) kx
  generalize i / (kz * (ky * kx)) = u at *
  generalize i % (kz * (ky * kx)) / (ky * kx) = v at *
  generalize i % (kz * (ky * kx)) % (ky * kx) / kx = w at *
  generalize i % (kz * (ky * kx)) % (ky * kx) % kx = x at *
  show (((((mb + u : ℕ) : ℤ) - mb) * kz + (b.ilo 2 + v) - b.ilo 2) * ky + (b.ilo 1 + w) - b.ilo 1) * kx +
    (b.ilo 0 + x) - b.ilo 0 = i
  have : (i : ℤ) = kz * (ky * kx) * u + (ky * kx * v + (kx * w + x)) := by
    rw [← a1, ← a2, ← a3]; push_cast; ring
  rw [this]; push_cast; ring

/-! ## C27: filling ghost cells -/

/-- **C27.** Filling ghosts completes on every rank; afterwards every cell a patch stores that is physically
the same as a cell `n'` owned by some patch `(r, p)` holds the value `(r, p)` had in `n'`. -/
theorem C27_fill_owner (c : Cfg) (hc : c.Ok) (mb me : ℕ) (hm : mb ≤ me) (σ : ℕ → RankState K) (rank : ℕ) :
    ∃ S, fill_ghosts c mb me σ rank = some S ∧
      ∀ q m n r p n', c.D.Has rank q → c.D.Has r p → mb ≤ m → m < me → Stored c n → Interior c n' →
        phys c r p n' = phys c rank q n → S q (m, n) = σ r p (m, n') := by
  refine ⟨_, run_eq _ (regs_fill hc) hc.valid mb me hm σ rank, ?_⟩
  intro q m n r p n' hq hrp h1 h2 hs hi he
  obtain ⟨hn, rfl⟩ := (phys_iff hc hrp hq hs hi).1 he
  by_cases hint : Interior c n
  · have hz := side_zero_iff.2 hint
    rw [nei_self hc.valid hq hz] at hn
    simp only [Option.some.injEq, Prod.mk.injEq] at hn
    obtain ⟨rfl, rfl⟩ := hn
    rw [fill_rest hc (Or.inr (Or.inr (Or.inl hint))), seenFrom_zero hz]
  · exact fill_ghost hc hq ⟨h1, h2⟩ hs hint hn

/-- **C27.** Everything else is unchanged: cells a patch owns, ghost cells outside a non-periodic boundary,
components that were not requested. -/
theorem C27_fill_rest (c : Cfg) (hc : c.Ok) (mb me : ℕ) (hm : mb ≤ me) (σ : ℕ → RankState K) (rank : ℕ) :
    ∃ S, fill_ghosts c mb me σ rank = some S ∧
      ∀ q m n, c.D.Has rank q →
        (Interior c n ∨ ¬ InDomain c rank q n ∨ ¬ Stored c n ∨ m < mb ∨ me ≤ m) →
        S q (m, n) = σ rank q (m, n) := by
  refine ⟨_, run_eq _ (regs_fill hc) hc.valid mb me hm σ rank, ?_⟩
  intro q m n hq h
  apply fill_rest hc
  rcases h with h | h | h | h | h
  · exact Or.inr (Or.inr (Or.inl h))
  · by_cases hs : Stored c n
    · by_cases hL : ∀ d, 0 < c.ldims d
      · right; right; right
        cases hn : c.D.nei rank q (side c n) with
        | none => rfl
        | some rp =>
          exact absurd ((inDomain_iff hc hq hs hL).2 ⟨rp.1, rp.2,
            (C26_neighbour_symm c.D hc.valid rank q rp.1 rp.2 _ hq (side_isDir c n) hn).1, hn⟩) h
      · push Not at hL
        obtain ⟨d, hd⟩ := hL
        have := hc.ibn d; have := hs d
        omega
    · exact Or.inr (Or.inl hs)
  · exact Or.inr (Or.inl h)
  · exact Or.inl (by omega)
  · exact Or.inl (by omega)

/-- **C27.** Every stored cell inside the domain has such an owner, and only one, so the two theorems above
determine the result everywhere. -/
theorem C27_unique_owner (c : Cfg) (hc : c.Ok) (hL : ∀ d, 0 < c.ldims d) (rank q : ℕ) (n : I3)
    (hq : c.D.Has rank q) (hn : Stored c n) (hd : InDomain c rank q n) :
    ∃! x : (ℕ × ℕ) × I3, c.D.Has x.1.1 x.1.2 ∧ Interior c x.2 ∧ phys c x.1.1 x.1.2 x.2 = phys c rank q n := by
  obtain ⟨r, p, hh, hnei⟩ := (inDomain_iff hc hq hn hL).1 hd
  have hint := interior_seen hc hn hL
  refine ⟨((r, p), seenFrom c (side c n) n), ⟨hh, hint, (phys_iff hc hh hq hn hint).2 ⟨hnei, rfl⟩⟩, ?_⟩
  rintro ⟨⟨r', p'⟩, n'⟩ ⟨h1, h2, h3⟩
  obtain ⟨h4, h5⟩ := (phys_iff hc h1 hq hn h2).1 h3
  rw [hnei] at h4
  simp only [Option.some.injEq, Prod.mk.injEq] at h4
  obtain ⟨rfl, rfl⟩ := h4
  exact Prod.ext rfl h5

/-! ## C28: adding ghost cells -/

/-- **C28.** Adding ghosts completes on every rank; afterwards every cell a patch owns holds the sum, over all
patches of all ranks, of the values those patches stored for the same physical cell. -/
theorem C28_add_owner [AddCommMonoid K] (c : Cfg) (hc : c.Ok) (mb me : ℕ) (hm : mb ≤ me) (σ : ℕ → RankState K)
    (rank : ℕ) :
    ∃ S, add_ghosts c mb me σ rank = some S ∧
      ∀ q m n, c.D.Has rank q → mb ≤ m → m < me → Interior c n →
        S q (m, n) = ∑ rp ∈ patches c.D, ∑ n' ∈ storedCells c,
          if phys c rp.1 rp.2 n' = phys c rank q n then σ rp.1 rp.2 (m, n') else 0 := by
  refine ⟨_, run_eq _ (regs_add hc) hc.valid mb me hm σ rank, ?_⟩
  intro q m n hq h1 h2 hn
  rw [add_value hc hq, contrib_sum hc hq ⟨h1, h2⟩ hn]

/-- **C28.** Nothing else changes: ghost cells and components that were not requested. -/
theorem C28_add_rest [AddCommMonoid K] (c : Cfg) (hc : c.Ok) (mb me : ℕ) (hm : mb ≤ me) (σ : ℕ → RankState K)
    (rank : ℕ) :
    ∃ S, add_ghosts c mb me σ rank = some S ∧
      ∀ q m n, c.D.Has rank q → (¬ Interior c n ∨ m < mb ∨ me ≤ m) → S q (m, n) = σ rank q (m, n) := by
  refine ⟨_, run_eq _ (regs_add hc) hc.valid mb me hm σ rank, ?_⟩
  intro q m n hq h
  rw [add_value hc hq, contrib_zero, add_zero]
  rcases h with h | h | h
  · exact Or.inr h
  · exact Or.inl (by omega)
  · exact Or.inl (by omega)

/-- **C28.** The total over all owned cells after the exchange is the total over all cells stored by any patch
that lie in the domain (all of them, in periodic directions). -/
theorem C28_total [AddCommMonoid K] (c : Cfg) (hc : c.Ok) (hL : ∀ d, 0 < c.ldims d) (mb me : ℕ)
    (σ : ℕ → RankState K) (m : ℕ) (h1 : mb ≤ m) (h2 : m < me) :
    ∃ τ : ℕ → RankState K, (∀ rank, add_ghosts c mb me σ rank = some (τ rank)) ∧
      ∑ rp ∈ patches c.D, ∑ n ∈ ownedCells c, τ rp.1 rp.2 (m, n) =
      ∑ rp ∈ patches c.D, ∑ n ∈ storedCells c, if InDomain c rp.1 rp.2 n then σ rp.1 rp.2 (m, n) else 0 := by
  choose τ hτ hv using fun rank => C28_add_owner c hc mb me (by omega) σ rank
  refine ⟨τ, hτ, ?_⟩
  have e1 : ∑ rp ∈ patches c.D, ∑ n ∈ ownedCells c, τ rp.1 rp.2 (m, n) =
      ∑ rp ∈ patches c.D, ∑ n ∈ ownedCells c, ∑ rp' ∈ patches c.D, ∑ n' ∈ storedCells c,
        if phys c rp'.1 rp'.2 n' = phys c rp.1 rp.2 n then σ rp'.1 rp'.2 (m, n') else 0 :=
    Finset.sum_congr rfl fun rp hrp => Finset.sum_congr rfl fun n hn =>
      hv rp.1 rp.2 m n (mem_patches.1 hrp) h1 h2 (mem_owned.1 hn)
  rw [e1]
  have e2 : ∀ rp ∈ patches c.D, (∑ n ∈ ownedCells c, ∑ rp' ∈ patches c.D, ∑ n' ∈ storedCells c,
        if phys c rp'.1 rp'.2 n' = phys c rp.1 rp.2 n then σ rp'.1 rp'.2 (m, n') else 0) =
      ∑ rp' ∈ patches c.D, ∑ n' ∈ storedCells c, ∑ n ∈ ownedCells c,
        if phys c rp'.1 rp'.2 n' = phys c rp.1 rp.2 n then σ rp'.1 rp'.2 (m, n') else 0 := by
    intro rp _
    rw [Finset.sum_comm]
    exact Finset.sum_congr rfl fun rp' _ => Finset.sum_comm
  rw [Finset.sum_congr rfl e2, Finset.sum_comm]
  refine Finset.sum_congr rfl fun rp' hrp' => ?_
  rw [Finset.sum_comm]
  refine Finset.sum_congr rfl fun n' hn' => ?_
  exact owner_count hc hL (mem_patches.1 hrp') (mem_stored.1 hn') _

/-! ## witnesses -/

/-- a 2×2×1 patch grid on two ranks, periodic in x, two ghost points in x and y -/
def exCfg : Cfg := ⟨exDecomp, ![3, 4, 1], ![2, 2, 0]⟩

theorem exCfg_ok : exCfg.Ok := ⟨exDecomp_valid, by decide⟩

/-- a ghost cell of patch 0 of rank 0 across the periodic boundary is owned by patch 0 of rank 1 -/
example : Stored exCfg ![-1, 2, 0] ∧ InDomain exCfg 0 0 ![-1, 2, 0] ∧
    phys exCfg 1 0 ![2, 2, 0] = phys exCfg 0 0 ![-1, 2, 0] := by decide
example : ¬ InDomain exCfg 0 0 ![1, -1, 0] := by decide
example : (fill_ghosts exCfg 0 1 (fun r p x => (100 * r + 10 * p + x.2 0 : ℤ)) 0).map (fun S => S 0 (0, ![-1, 2, 0])) =
    some 102 := by decide +kernel
example : (add_ghosts exCfg 0 1 (fun r p x => (100 * r + 10 * p + x.2 0 : ℤ)) 0).map (fun S => S 0 (0, ![1, 2, 0])) =
    some 556 := by decide +kernel
example : (entries (inside exCfg) exCfg.D 1 0).length = 5 := by decide +kernel

end Psc.Props
