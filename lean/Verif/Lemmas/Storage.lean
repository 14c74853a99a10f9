import Verif.Spec.Storage
import Verif.Lemmas.Push
import Verif.Lemmas.Split
import Verif.Lemmas.Var1

/-!
# Where deposits go
-/

namespace Psc

open Spec

section
variable {K : Type*}

/-- all accumulations in a box -/
def EvIn (lo hi : I3) (evs : List (Add K)) : Prop :=
  ∀ e ∈ evs, (lo 0 ≤ e.i ∧ e.i ≤ hi 0) ∧ (lo 1 ≤ e.j ∧ e.j ≤ hi 1) ∧ (lo 2 ≤ e.k ∧ e.k ≤ hi 2)

theorem EvIn.append {lo hi : I3} {a b : List (Add K)} (ha : EvIn lo hi a) (hb : EvIn lo hi b) : EvIn lo hi (a ++ b) :=
  fun e he => (List.mem_append.1 he).elim (ha e) (hb e)

theorem EvIn.flatMap {α : Type*} {lo hi : I3} {l : List α} {f : α → List (Add K)} (h : ∀ a ∈ l, EvIn lo hi (f a)) :
    EvIn lo hi (l.flatMap f) := fun e he => by
  obtain ⟨a, ha, he⟩ := List.mem_flatMap.1 he
  exact h a ha e he

theorem EvIn.writes {lo hi : I3} {evs : List (Add K)} (h : EvIn lo hi evs) {ldims ibn : I3}
    (hl : ∀ d, -ibn d ≤ lo d) (hh : ∀ d, hi d < ldims d + ibn d) : WritesStorage ldims ibn evs := by
  intro e he
  obtain ⟨h0, h1, h2⟩ := h e he
  have := hl 0; have := hl 1; have := hl 2; have := hh 0; have := hh 1; have := hh 2
  exact ⟨⟨by omega, by omega⟩, ⟨by omega, by omega⟩, ⟨by omega, by omega⟩⟩

end

section
variable {K : Type*} [Field K] [LinearOrder K] [IsStrictOrderedRing K] [FloorRing K]

/-- the point lies in the half-open box of cells -/
def PtIn (lo hi : I3) (x : R3 K) : Prop := ∀ d, (lo d : K) ≤ x d ∧ x d < hi d

omit [FloorRing K] in
theorem PtIn.comb {lo hi : I3} {x y : R3 K} (hx : PtIn lo hi x) (hy : PtIn lo hi y) {t : K} (h0 : 0 ≤ t) (h1 : t ≤ 1)
    (d : Fin 3) : (lo d : K) ≤ x d + t * (y d - x d) ∧ x d + t * (y d - x d) < hi d := by
  obtain ⟨a1, a2⟩ := hx d
  obtain ⟨b1, b2⟩ := hy d
  have e : x d + t * (y d - x d) = (1 - t) * x d + t * y d := by ring
  rw [e]
  constructor
  · nlinarith
  · rcases eq_or_lt_of_le h0 with h | h
    · rw [← h]; simpa using a2
    · nlinarith

namespace Current1vb

theorem splitX1_in {lo hi : I3} {xm xp : R3 K} (hm : PtIn lo hi xm) (hp : PtIn lo hi xp) {dim : Fin 3}
    (hne : ⌊xp dim⌋ ≠ ⌊xm dim⌋) : PtIn lo hi (splitX1 dim ⌊xm dim⌋ ⌊xp dim⌋ xm xp) := by
  have a0 := Int.floor_le (xm dim); have a1 := Int.lt_floor_add_one (xm dim)
  have b0 := Int.floor_le (xp dim); have b1 := Int.lt_floor_add_one (xp dim)
  unfold splitX1
  simp only
  generalize ⌊xm dim⌋ = im at *
  generalize ⌊xp dim⌋ = ip at *
  have hb : (xm dim < xp dim ∧ xm dim ≤ ((max im ip : ℤ) : K) ∧ ((max im ip : ℤ) : K) ≤ xp dim) ∨
      (xp dim < xm dim ∧ xp dim ≤ ((max im ip : ℤ) : K) ∧ ((max im ip : ℤ) : K) ≤ xm dim) := by
    rcases lt_or_gt_of_ne hne with h | h
    · right
      rw [max_eq_left h.le]
      have : ((ip + 1 : ℤ) : K) ≤ im := by exact_mod_cast h
      push_cast at this
      exact ⟨by linarith, by linarith, a0⟩
    · left
      rw [max_eq_right h.le]
      have : ((im + 1 : ℤ) : K) ≤ ip := by exact_mod_cast h
      push_cast at this
      exact ⟨by linarith, by linarith, b0⟩
  generalize ((max im ip : ℤ) : K) = bnd at *
  have hf : 0 ≤ (bnd - xm dim) / (xp dim - xm dim) ∧ (bnd - xm dim) / (xp dim - xm dim) ≤ 1 := by
    rcases hb with ⟨h1, h2, h3⟩ | ⟨h1, h2, h3⟩
    · exact ⟨div_nonneg (by linarith) (by linarith), (div_le_one (by linarith)).2 (by linarith)⟩
    · have e : (bnd - xm dim) / (xp dim - xm dim) = (xm dim - bnd) / (xm dim - xp dim) := by
        rw [← neg_sub, ← neg_sub (xm dim), neg_div_neg_eq]
      rw [e]
      exact ⟨div_nonneg (by linarith) (by linarith), (div_le_one (by linarith)).2 (by linarith)⟩
  intro d
  beta_reduce
  split_ifs with hd
  · subst hd
    have := hm d; have := hp d
    rcases hb with ⟨h1, h2, h3⟩ | ⟨h1, h2, h3⟩
    · exact ⟨by linarith, by linarith⟩
    · exact ⟨by linarith, by linarith⟩
  · exact hm.comb hp hf.1 hf.2 d

theorem splitDim_in {lo hi : I3} {L H : I3} (invar : Bool) (dim : Fin 3) (next : R3 K → R3 K → List (Add K))
    (hn : ∀ xm xp, PtIn lo hi xm → PtIn lo hi xp → EvIn L H (next xm xp)) (xm xp : R3 K) (hm : PtIn lo hi xm)
    (hp : PtIn lo hi xp) : EvIn L H (splitDim invar dim next xm xp) := by
  unfold splitDim
  simp only
  split_ifs with h
  · exact hn _ _ hm hp
  · push Not at h
    have h1 := splitX1_in hm hp h.2
    exact (hn _ _ hm h1).append (hn _ _ h1 hp)

theorem oneCell_in {lo hi L H : I3} (dep : Dep K)
    (hd : ∀ i qw dx xa, (∀ d, lo d ≤ i d ∧ i d < hi d) → EvIn L H (dep i qw dx xa)) (qw : K) (xm xp : R3 K)
    (hm : PtIn lo hi xm) (hp : PtIn lo hi xp) : EvIn L H (oneCell dep qw xm xp) := by
  refine hd _ _ _ _ fun d => ?_
  have h := hm.comb hp (t := 1/2) (by norm_num) (by norm_num) d
  have e : xm d + 1/2 * (xp d - xm d) = 1/2 * (xp d + xm d) := by ring
  rw [e] at h
  exact ⟨Int.le_floor.2 h.1, Int.floor_lt.2 h.2⟩

theorem splitZ_in {lo hi L H : I3} (invar : Fin 3 → Bool) (dep : Dep K)
    (hd : ∀ i qw dx xa, (∀ d, lo d ≤ i d ∧ i d < hi d) → EvIn L H (dep i qw dx xa)) (qw : K) (xm xp : R3 K)
    (hm : PtIn lo hi xm) (hp : PtIn lo hi xp) : EvIn L H (splitZ invar dep qw xm xp) :=
  splitDim_in _ _ _ (splitDim_in _ _ _ (splitDim_in _ _ _ (oneCell_in dep hd qw))) xm xp hm hp

theorem dep_xyz_in {lo hi : I3} (f : R3 K) (i : I3) (qw : K) (dx xa : R3 K) (h : ∀ d, lo d ≤ i d ∧ i d < hi d) :
    EvIn lo hi (dep_xyz f i qw dx xa) := by
  have h0 := h 0; have h1 := h 1; have h2 := h 2
  intro e he
  simp only [dep_xyz, List.mem_cons, List.not_mem_nil, or_false] at he
  rcases he with h | h | h | h | h | h | h | h | h | h | h | h <;> subst h <;> simp only <;> omega

theorem dep_yz_in {lo hi : I3} (f : R3 K) (i : I3) (qw : K) (dx xa : R3 K) (h : ∀ d, lo d ≤ i d ∧ i d < hi d) :
    EvIn lo ![hi 0 - 1, hi 1, hi 2] (dep_yz f i qw dx xa) := by
  have h0 := h 0; have h1 := h 1; have h2 := h 2
  intro e he
  simp only [dep_yz, List.mem_cons, List.not_mem_nil, or_false] at he
  rcases he with h | h | h | h | h | h | h | h <;> subst h <;>
    simp only [Matrix.cons_val_zero, Matrix.cons_val_one, Matrix.cons_val] <;> omega

theorem dep_xz_in {lo hi : I3} (f : R3 K) (i : I3) (qw : K) (dx xa : R3 K) (h : ∀ d, lo d ≤ i d ∧ i d < hi d) :
    EvIn lo ![hi 0, hi 1 - 1, hi 2] (dep_xz f i qw dx xa) := by
  have h0 := h 0; have h1 := h 1; have h2 := h 2
  intro e he
  simp only [dep_xz, List.mem_cons, List.not_mem_nil, or_false] at he
  rcases he with h | h | h | h | h | h | h | h <;> subst h <;>
    simp only [Matrix.cons_val_zero, Matrix.cons_val_one, Matrix.cons_val] <;> omega

end Current1vb

namespace CurrentVar1

omit [FloorRing K] in
theorem vbCell_in {lo hi : I3} (h0 : lo 0 ≤ 0 ∧ 0 ≤ hi 0) (f : R3 K) (qw : K) (i : I3) (x dx : R3 K)
    (h1 : lo 1 ≤ i 1 ∧ i 1 < hi 1) (h2 : lo 2 ≤ i 2 ∧ i 2 < hi 2) : EvIn lo hi (vbCell f qw i x dx) := by
  intro e he
  simp only [vbCell, List.mem_cons, List.not_mem_nil, or_false] at he
  rcases he with h | h | h | h | h | h | h | h <;> subst h <;> simp only <;> omega

omit [FloorRing K] in
theorem run_in {lo hi : I3} (cell : I3 → R3 K → R3 K → List (Add K))
    (hc : ∀ i x dx, (lo 1 ≤ i 1 ∧ i 1 < hi 1) → (lo 2 ≤ i 2 ∧ i 2 < hi 2) → EvIn lo hi (cell i x dx)) (idiff : I3)
    (s : St K) (h1 : lo 1 ≤ s.i 1 ∧ s.i 1 < hi 1) (h2 : lo 2 ≤ s.i 2 ∧ s.i 2 < hi 2)
    (k1 : lo 1 ≤ s.i 1 + idiff 1 ∧ s.i 1 + idiff 1 < hi 1) (k2 : lo 2 ≤ s.i 2 + idiff 2 ∧ s.i 2 + idiff 2 < hi 2) :
    EvIn lo hi (run cell idiff s) := by
  unfold run
  simp only
  have nil : EvIn lo hi ([] : List (Add K)) := fun e he => by simp at he
  generalize hfs : dirs idiff s.x s.dx = fs
  have hcases : fs = (none, none) ∨ fs = (some 2, none) ∨ fs = (some 1, none) ∨ fs = (some 2, some 1) ∨
      fs = (some 1, some 2) := by
    rw [← hfs]; unfold dirs
    simp only
    split_ifs <;> simp
  rcases hcases with h | h | h | h | h <;> subst h <;> simp only [segment, upd, offFor]
  · exact (nil.append nil).append (hc _ _ _ h1 h2)
  · refine ((hc _ _ _ h1 h2).append nil).append (hc _ _ _ ?_ ?_) <;> simp <;> omega
  · refine ((hc _ _ _ h1 h2).append nil).append (hc _ _ _ ?_ ?_) <;> simp <;> omega
  · refine ((hc _ _ _ h1 h2).append (hc _ _ _ ?_ ?_)).append (hc _ _ _ ?_ ?_) <;> simp <;> omega
  · refine ((hc _ _ _ h1 h2).append (hc _ _ _ ?_ ?_)).append (hc _ _ _ ?_ ?_) <;> simp <;> omega

end CurrentVar1

namespace Esirkepov

theorem mem_upTo' {lo : ℤ} {n : ℕ} {l : ℤ} (h : l ∈ upTo lo n) : lo ≤ l ∧ l < lo + n := by
  induction n generalizing lo with
  | zero => simp [upTo] at h
  | succ n ih =>
    rw [upTo, List.mem_cons] at h
    rcases h with h | h
    · subst h; push_cast; omega
    · have := ih h; push_cast; omega

theorem mem_loopLe' {lo hi l : ℤ} (h : l ∈ loopLe lo hi) : lo ≤ l ∧ l ≤ hi := by
  have := mem_upTo' h; omega

theorem mem_loopLt' {lo hi l : ℤ} (h : l ∈ loopLt lo hi) : lo ≤ l ∧ l < hi := by
  have := mem_upTo' h; omega

omit [LinearOrder K] [IsStrictOrderedRing K] [FloorRing K] in
theorem mem_cum' {fnq : K} {w : ℤ → K} {ls : List ℤ} {a : K} {p : ℤ × K} (h : p ∈ cum fnq w ls a) : p.1 ∈ ls := by
  induction ls generalizing a with
  | nil => simp [cum] at h
  | cons l ls ih =>
    rw [cum, List.mem_cons] at h
    rcases h with h | h
    · subst h; simp
    · exact List.mem_cons_of_mem _ (ih h)

omit [LinearOrder K] [IsStrictOrderedRing K] [FloorRing K]

/-- the index range of the loops of a direction lies in `[lo, hi]` -/
def Dir.In (s : Dir K) (lo hi : ℤ) : Prop := lo ≤ s.lg + s.lmin ∧ s.lg + s.lmax ≤ hi

theorem calc_xyz_in {lo hi : I3} {x y z : Dir K} (hx : x.In (lo 0) (hi 0)) (hy : y.In (lo 1) (hi 1))
    (hz : z.In (lo 2) (hi 2)) : EvIn lo hi (calc_xyz x y z) := by
  unfold Dir.In at hx hy hz
  refine EvIn.append (EvIn.append ?_ ?_) ?_ <;>
    refine EvIn.flatMap fun a ha => EvIn.flatMap fun b hb => fun e he => ?_ <;>
    obtain ⟨p, hp, he⟩ := List.mem_map.1 he <;>
    have h1 := mem_loopLe' ha <;> have h2 := mem_loopLe' hb <;> have h3 := mem_loopLe' (mem_cum' hp) <;>
    subst he <;> simp only <;> omega

theorem calc_xz_in {lo hi : I3} {x z : Dir K} (fv : K) (hx : x.In (lo 0) (hi 0)) (hy : lo 1 ≤ 0 ∧ 0 ≤ hi 1)
    (hz : z.In (lo 2) (hi 2)) : EvIn lo hi (calc_xz x z fv) := by
  unfold Dir.In at hx hz
  refine EvIn.append (EvIn.append ?_ ?_) ?_ <;>
    refine EvIn.flatMap fun a ha => fun e he => ?_ <;>
    obtain ⟨p, hp, he⟩ := List.mem_map.1 he <;>
    have h1 := mem_loopLe' ha
  · have h3 := mem_loopLt' (mem_cum' hp)
    subst he; simp only; omega
  · have h3 := mem_loopLe' hp
    subst he; simp only; omega
  · have h3 := mem_loopLt' (mem_cum' hp)
    subst he; simp only; omega

theorem calc_yz_1st_in {lo hi : I3} {y z : Dir K} (fv : K) (hx : lo 0 ≤ 0 ∧ 0 ≤ hi 0) (hy : y.In (lo 1) (hi 1))
    (hz : z.In (lo 2) (hi 2)) : EvIn lo hi (calc_yz_1st y z fv) := by
  unfold Dir.In at hy hz
  refine EvIn.append (EvIn.append ?_ ?_) ?_ <;>
    refine EvIn.flatMap fun a ha => fun e he => ?_ <;>
    obtain ⟨p, hp, he⟩ := List.mem_map.1 he <;>
    have h1 := mem_loopLe' ha
  · have h3 := mem_loopLe' hp
    subst he; simp only; omega
  · have h3 := mem_loopLt' (mem_cum' hp)
    subst he; simp only; omega
  · have h3 := mem_loopLt' (mem_cum' hp)
    subst he; simp only; omega

theorem yzInner_in {lo hi : I3} {y z : Dir K} (fv : K) (hx : lo 0 ≤ 0 ∧ 0 ≤ hi 0) (l3 : ℤ)
    (h3 : lo 2 ≤ z.lg + l3 ∧ z.lg + l3 ≤ hi 2) (ls : List ℤ) (hl : ∀ l ∈ ls, lo 1 ≤ y.lg + l ∧ y.lg + l ≤ hi 1) (j : K)
    (jz : ℤ → K) : EvIn lo hi (yzInner y z fv l3 ls j jz).1 := by
  induction ls generalizing j jz with
  | nil => intro e he; simp [yzInner] at he
  | cons l ls ih =>
    have h2 := hl l List.mem_cons_self
    intro e he
    simp only [yzInner, List.mem_cons] at he
    rcases he with h | h | h | h
    · subst h; simp only; omega
    · subst h; simp only; omega
    · subst h; simp only; omega
    · exact ih (fun l hl' => hl l (List.mem_cons_of_mem _ hl')) _ _ e h

theorem yzOuter_in {lo hi : I3} {y z : Dir K} (fv : K) (hx : lo 0 ≤ 0 ∧ 0 ≤ hi 0) (hy : y.In (lo 1) (hi 1)) (ls : List ℤ)
    (hl : ∀ l ∈ ls, lo 2 ≤ z.lg + l ∧ z.lg + l ≤ hi 2) (jz : ℤ → K) : EvIn lo hi (yzOuter y z fv ls jz) := by
  unfold Dir.In at hy
  induction ls generalizing jz with
  | nil => intro e he; simp [yzOuter] at he
  | cons l ls ih =>
    refine EvIn.append (yzInner_in fv hx l (hl l List.mem_cons_self) _ (fun l2 h2 => ?_) _ _)
      (ih (fun l hl' => hl l (List.mem_cons_of_mem _ hl')) _)
    have := mem_loopLe' h2
    omega

theorem calc_yz_2nd_in {lo hi : I3} {y z : Dir K} (fv : K) (hx : lo 0 ≤ 0 ∧ 0 ≤ hi 0) (hy : y.In (lo 1) (hi 1))
    (hz : z.In (lo 2) (hi 2)) : EvIn lo hi (calc_yz_2nd y z fv) :=
  yzOuter_in fv hx hy _ (fun l hl => by have := mem_loopLe' hl; unfold Dir.In at hz; omega) _

theorem mem_yzInner {y z : Dir K} {fv : K} {l3 l2 : ℤ} {ls : List ℤ} (h : l2 ∈ ls) (j : K) (jz : ℤ → K) :
    (⟨0, 0, y.lg + l2, z.lg + l3, fv * w2 y z l2 l3⟩ : Add K) ∈ (yzInner y z fv l3 ls j jz).1 := by
  induction ls generalizing j jz with
  | nil => simp at h
  | cons l ls ih =>
    simp only [yzInner, List.mem_cons]
    rcases List.mem_cons.1 h with h | h
    · subst h; exact Or.inl rfl
    · exact Or.inr (Or.inr (Or.inr (ih h _ _)))

theorem mem_calc_yz_2nd {y z : Dir K} {fv : K} {l2 l3 : ℤ} (h2 : l2 ∈ loopLe y.lmin y.lmax)
    (h3 : l3 ∈ loopLe z.lmin z.lmax) :
    (⟨0, 0, y.lg + l2, z.lg + l3, fv * w2 y z l2 l3⟩ : Add K) ∈ calc_yz_2nd y z fv := by
  unfold calc_yz_2nd
  generalize loopLe z.lmin z.lmax = ls at h3
  generalize (fun _ => (0 : K)) = jz
  induction ls generalizing jz with
  | nil => simp at h3
  | cons l ls ih =>
    simp only [yzOuter, List.mem_append]
    rcases List.mem_cons.1 h3 with h | h
    · subst h; exact Or.inl (mem_yzInner h2 _ _)
    · exact Or.inr (ih h _)

theorem calc_xy_in {lo hi : I3} {x y : Dir K} (fv : K) (hx : x.In (lo 0) (hi 0)) (hy : y.In (lo 1) (hi 1))
    (hz : lo 2 ≤ 0 ∧ 0 ≤ hi 2) : EvIn lo hi (calc_xy x y fv) := by
  unfold Dir.In at hx hy
  refine EvIn.append ?_ ?_
  · refine EvIn.flatMap fun a ha => EvIn.flatMap fun p hp => fun e he => ?_
    have h1 := mem_loopLe' ha
    have h3 := mem_loopLe' (mem_cum' hp)
    simp only [List.mem_cons, List.not_mem_nil, or_false] at he
    rcases he with h | h <;> subst h <;> simp only <;> omega
  · refine EvIn.flatMap fun a ha => fun e he => ?_
    obtain ⟨p, hp, he⟩ := List.mem_map.1 he
    have h1 := mem_loopLe' ha
    have h3 := mem_loopLe' (mem_cum' hp)
    subst he; simp only; omega

end Esirkepov

section
variable {K : Type*} [Field K] [LinearOrder K] [IsStrictOrderedRing K] [FloorRing K]

theorem Esirkepov.dir1_in {um up fq : K} {n : ℤ} (h0 : 0 ≤ um) (h1 : um < n) :
    (Esirkepov.dir1 um up fq).In (-1) (n + 1) := by
  have a : (0:ℤ) ≤ ⌊um⌋ := Int.floor_nonneg.2 h0
  have b : ⌊um⌋ < n := Int.floor_lt.2 h1
  unfold Esirkepov.Dir.In Esirkepov.dir1 Esirkepov.minmax1
  simp only
  generalize ⌊um⌋ = lg at *
  generalize ⌊up⌋ = k at *
  split_ifs <;> simp only <;> omega

theorem nint_in {u : K} {n : ℤ} (h0 : 0 ≤ u) (h1 : u < n) : 0 ≤ nint u ∧ nint u ≤ n := by
  unfold nint
  rw [if_pos h0]
  constructor
  · exact Int.floor_nonneg.2 (by linarith)
  · have : ⌊u + 1/2⌋ < n + 1 := by
      rw [Int.floor_lt]; push_cast; linarith
    omega

theorem Esirkepov.dir2_in {um up fq : K} {n : ℤ} (h0 : 0 ≤ um) (h1 : um < n) :
    (Esirkepov.dir2 um up fq).In (-2) (n + 2) := by
  have h := nint_in h0 h1
  unfold Esirkepov.Dir.In Esirkepov.dir2 Esirkepov.minmax2
  simp only
  generalize nint um = lg at *
  generalize nint up = k at *
  split_ifs <;> simp only <;> omega

end

end

/-! ## Charge deposits -/

namespace Deposit

variable {K : Type*} [Field K] [LinearOrder K] [IsStrictOrderedRing K] [FloorRing K]

theorem nc1_xyz_in {n : I3} (x : R3 K) (v : K) (h : ∀ d, 0 ≤ x d ∧ x d < n d) : EvIn (fun _ => 0) n (nc1_xyz x v) := by
  have a : ∀ d, 0 ≤ ⌊x d⌋ ∧ ⌊x d⌋ < n d := fun d => ⟨Int.floor_nonneg.2 (h d).1, Int.floor_lt.2 (h d).2⟩
  have a0 := a 0; have a1 := a 1; have a2 := a 2
  intro e he
  simp only [nc1_xyz, first_xyz, List.mem_cons, List.not_mem_nil, or_false] at he
  rcases he with h | h | h | h | h | h | h | h <;> subst h <;> simp only <;> omega

theorem nc1_yz_in {n : I3} (hn : 0 ≤ n 0) (x : R3 K) (v : K) (h : ∀ d, d ≠ 0 → 0 ≤ x d ∧ x d < n d) :
    EvIn (fun _ => 0) ![0, n 1, n 2] (nc1_yz x v) := by
  have a : ∀ d, d ≠ 0 → 0 ≤ ⌊x d⌋ ∧ ⌊x d⌋ < n d :=
    fun d hd => ⟨Int.floor_nonneg.2 (h d hd).1, Int.floor_lt.2 (h d hd).2⟩
  have a1 := a 1 (by decide); have a2 := a 2 (by decide)
  intro e he
  simp only [nc1_yz, first_yz, List.mem_cons, List.not_mem_nil, or_false] at he
  rcases he with h | h | h | h <;> subst h <;>
    simp only [Matrix.cons_val_zero, Matrix.cons_val_one, Matrix.cons_val] <;> omega

theorem nc2_xyz_in {n : I3} (x : R3 K) (v : K) (h : ∀ d, 0 ≤ x d ∧ x d < n d) :
    EvIn (fun _ => -1) (fun d => n d + 1) (nc2_xyz x v) := by
  have a0 := nint_in (h 0).1 (h 0).2; have a1 := nint_in (h 1).1 (h 1).2; have a2 := nint_in (h 2).1 (h 2).2
  intro e he
  simp only [nc2_xyz, second_xyz, List.mem_cons, List.not_mem_nil, or_false] at he
  rcases he with h|h|h|h|h|h|h|h|h|h|h|h|h|h|h|h|h|h|h|h|h|h|h|h|h|h|h <;> subst h <;> simp only <;> omega

theorem nc2_yz_in {n : I3} (x : R3 K) (v : K) (h : ∀ d, d ≠ 0 → 0 ≤ x d ∧ x d < n d) :
    EvIn ![0, -1, -1] ![0, n 1 + 1, n 2 + 1] (nc2_yz x v) := by
  have b1 := h 1 (by decide); have b2 := h 2 (by decide)
  have a1 := nint_in b1.1 b1.2; have a2 := nint_in b2.1 b2.2
  intro e he
  simp only [nc2_yz, second_yz, List.mem_cons, List.not_mem_nil, or_false] at he
  rcases he with h|h|h|h|h|h|h|h|h <;> subst h <;>
    simp only [Matrix.cons_val_zero, Matrix.cons_val_one, Matrix.cons_val] <;> omega

end Deposit

/-! ## Interpolation reads -/

namespace Interp

variable {K : Type*} [Field K] [LinearOrder K] [IsStrictOrderedRing K] [FloorRing K]

theorem same' {ldims ibn : I3} {F G : Fld K} (h : SameStorage ldims ibn F G) (m : Fin 6) (i j k : ℤ)
    (a0 : -ibn 0 ≤ i) (a1 : i < ldims 0 + ibn 0) (b0 : -ibn 1 ≤ j) (b1 : j < ldims 1 + ibn 1) (c0 : -ibn 2 ≤ k)
    (c1 : k < ldims 2 + ibn 2) : F m i j k = G m i j k := h m i j k ⟨⟨a0, a1⟩, ⟨b0, b1⟩, ⟨c0, c1⟩⟩

theorem c1_in {u : K} {n : ℤ} (h0 : 0 ≤ u) (h1 : u < n) : 0 ≤ (C1.set u).l ∧ (C1.set u).l < n :=
  ⟨Int.floor_nonneg.2 h0, Int.floor_lt.2 h1⟩

theorem cf1_in {m : Fin 6} {d : Fin 3} {u : K} {n : ℤ} (h0 : 0 ≤ u) (h1 : u < n) :
    -1 ≤ (cf1 m d u).l ∧ (cf1 m d u).l < n := by
  unfold cf1 C1.set
  simp only
  split_ifs
  · refine ⟨Int.le_floor.2 (by push_cast; linarith), Int.floor_lt.2 (by linarith)⟩
  · exact ⟨by have := Int.floor_nonneg.2 h0; omega, Int.floor_lt.2 h1⟩

theorem cf2_in {m : Fin 6} {d : Fin 3} {u : K} {n : ℤ} (h0 : 0 ≤ u) (h1 : u < n) :
    -1 ≤ (cf2 m d u).l ∧ (cf2 m d u).l ≤ n := by
  unfold cf2 C2.set
  simp only
  split_ifs
  · unfold nint
    split_ifs with hh
    · refine ⟨by have := Int.floor_nonneg.2 (show (0:K) ≤ u - 1/2 + 1/2 by linarith); omega, ?_⟩
      have : ⌊u - 1/2 + 1/2⌋ < n := Int.floor_lt.2 (by linarith)
      omega
    · have hn : (0:K) < n := by linarith
      have hn' : 0 < n := by exact_mod_cast hn
      refine ⟨?_, ?_⟩
      · have : -1 - 1 < ⌈u - 1/2 - 1/2⌉ := by rw [Int.lt_ceil]; push_cast; linarith
        omega
      · have : ⌈u - 1/2 - 1/2⌉ ≤ 0 := by rw [Int.ceil_le]; push_cast; linarith
        omega
  · have := nint_in h0 h1
    omega

end Interp

end Psc
