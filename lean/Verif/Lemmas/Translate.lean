import Verif.Lemmas.Pic

/-!
# Translation by whole cells: interpolation and deposition
-/

namespace Psc.Translate

open Interp Pic

section interp
variable {K : Type} [Field K] [LinearOrder K] [IsStrictOrderedRing K] [FloorRing K]

/-- a field seen from a frame whose origin is moved by `s` -/
def shiftF (s : I3) (EM : Fld K) : Fld K := fun m i j k => EM m (i + s 0) (j + s 1) (k + s 2)

theorem C1_add (u : K) (s : ℤ) : C1.set (u + s) = ⟨(C1.set u).v0, (C1.set u).v1, (C1.set u).l + s⟩ := by
  unfold C1.set
  simp only [Int.floor_add_intCast]
  congr 1 <;> push_cast <;> ring

theorem cf1_add (m : Fin 6) (d : Fin 3) (u : K) (s : ℤ) :
    cf1 m d (u + s) = ⟨(cf1 m d u).v0, (cf1 m d u).v1, (cf1 m d u).l + s⟩ := by
  unfold cf1
  have : (if stag m d then u + (s : K) - 1 / 2 else u + s) = (if stag m d then u - 1 / 2 else u) + s := by
    split_ifs <;> ring
  rw [this, C1_add]

theorem ec_xyz_add (x : R3 K) (s : I3) (EM : Fld K) :
    interp_ec_xyz (fun d => x d + s d) EM = interp_ec_xyz x (shiftF s EM) := by
  unfold interp_ec_xyz
  simp only [C1_add]
  unfold ec_xyz shiftF
  simp only [add_right_comm _ (s _) 1]

theorem ec_yz_add (x : R3 K) (s : I3) (h0 : s 0 = 0) (EM : Fld K) :
    interp_ec_yz (fun d => x d + s d) EM = interp_ec_yz x (shiftF s EM) := by
  unfold interp_ec_yz
  simp only [C1_add]
  unfold ec_yz shiftF
  simp only [add_right_comm _ (s _) 1, h0, add_zero]

theorem i1_yz_add (x : R3 K) (s : I3) (h0 : s 0 = 0) (EM : Fld K) :
    interp_1st_yz (fun d => x d + s d) EM = interp_1st_yz x (shiftF s EM) := by
  funext m
  unfold interp_1st_yz
  simp only [cf1_add]
  unfold cc1_yz shiftF
  simp only [add_right_comm _ (s _) 1, h0, add_zero]

end interp

section current
variable {K : Type} [Field K] [LinearOrder K] [IsStrictOrderedRing K] [FloorRing K]

open Current1vb

theorem moveBy_append (s : I3) (l l' : List (Add K)) : moveBy s (l ++ l') = moveBy s l ++ moveBy s l' := by
  unfold moveBy; exact List.map_append

/-- a deposition in one cell moves along -/
def Moves (s : I3) (dep : Dep K) : Prop := ∀ i qw dx xa, dep (fun d => i d + s d) qw dx xa = moveBy s (dep i qw dx xa)

theorem moves_xyz (s : I3) (f : R3 K) : Moves s (dep_xyz f) := by
  intro i qw dx xa
  unfold dep_xyz moveBy
  simp only [List.map_cons, List.map_nil, add_right_comm _ (s _) 1]

theorem moves_yz (s : I3) (f : R3 K) : Moves s (dep_yz f) := by
  intro i qw dx xa
  unfold dep_yz moveBy
  simp only [List.map_cons, List.map_nil, add_right_comm _ (s _) 1]

theorem oneCell_add {s : I3} {dep : Dep K} (h : Moves s dep) (qw : K) (xm xp : R3 K) :
    oneCell dep qw (fun d => xm d + s d) (fun d => xp d + s d) = moveBy s (oneCell dep qw xm xp) := by
  unfold oneCell
  have e1 : ∀ d, 1 / 2 * (xp d + (s d : K) + (xm d + s d)) = 1 / 2 * (xp d + xm d) + s d := fun d => by ring
  simp only [e1, Int.floor_add_intCast]
  rw [h]
  congr 2
  · funext d; ring
  · funext d; push_cast; ring

theorem splitX1_add (s : I3) (dim : Fin 3) (im ip : ℤ) (xm xp : R3 K) :
    splitX1 dim (im + s dim) (ip + s dim) (fun d => xm d + s d) (fun d => xp d + s d) =
      fun d => splitX1 dim im ip xm xp d + s d := by
  unfold splitX1
  simp only [max_add_add_right, Int.cast_add, add_sub_add_right_eq_sub]
  funext d
  split_ifs with h
  · rw [h]
  · ring

theorem splitDim_add {s : I3} {next : R3 K → R3 K → List (Add K)} (inv : Bool) (dim : Fin 3)
    (h : ∀ xm xp, next (fun d => xm d + s d) (fun d => xp d + s d) = moveBy s (next xm xp)) (xm xp : R3 K) :
    splitDim inv dim next (fun d => xm d + s d) (fun d => xp d + s d) = moveBy s (splitDim inv dim next xm xp) := by
  unfold splitDim
  simp only [Int.floor_add_intCast, add_left_inj]
  rw [splitX1_add]
  split_ifs
  · exact h _ _
  · rw [moveBy_append, h, h]

theorem splitZ_add {s : I3} (inv : Fin 3 → Bool) {dep : Dep K} (h : Moves s dep) (qw : K) (xm xp : R3 K) :
    splitZ inv dep qw (fun d => xm d + s d) (fun d => xp d + s d) = moveBy s (splitZ inv dep qw xm xp) :=
  splitDim_add _ _ (splitDim_add _ _ (splitDim_add _ _ (oneCell_add h qw))) _ _

theorem split_add {s : I3} {inv : Fin 3 → Bool} (hs : ∀ d, inv d = true → s d = 0) {dep : Dep K} (h : Moves s dep)
    (dt : K) (dxi : R3 K) (qw : K) (v xm xp : R3 K) :
    split inv dep dt dxi qw v (fun d => xm d + s d) (fun d => xp d + s d) = moveBy s (split inv dep dt dxi qw v xm xp) := by
  unfold split
  simp only
  rw [← splitZ_add inv h]
  unfold fixInvar
  congr 1
  · funext d
    cases hd : inv d
    · simp only [hd, Bool.false_eq_true, if_false]
    · simp [hs d hd]
  · funext d
    cases hd : inv d
    · simp only [hd, Bool.false_eq_true, if_false]
    · simp [hs d hd]

open CurrentVar1

theorem vbCell_add (s : I3) (h0 : s 0 = 0) (f : R3 K) (qw : K) (i : I3) (x dx : R3 K) :
    vbCell f qw (fun d => i d + s d) x dx = moveBy s (vbCell f qw i x dx) := by
  unfold vbCell moveBy
  simp only [List.map_cons, List.map_nil, add_right_comm _ (s _) 1, h0, add_zero]

theorem segment_add {s : I3} {cell : I3 → R3 K → R3 K → List (Add K)}
    (h : ∀ i x dx, cell (fun d => i d + s d) x dx = moveBy s (cell i x dx)) (idiff : I3) (st : St K) (o : Option (Fin 3)) :
    segment cell idiff { st with i := fun d => st.i d + s d } o =
      (moveBy s (segment cell idiff st o).1,
        { (segment cell idiff st o).2 with i := fun d => (segment cell idiff st o).2.i d + s d }) := by
  cases o with
  | none => rfl
  | some f =>
    unfold segment
    simp only [h]
    refine Prod.ext rfl ?_
    unfold upd
    simp only
    congr 1
    funext d
    fin_cases d <;> simp <;> ring

theorem run_add {s : I3} {cell : I3 → R3 K → R3 K → List (Add K)}
    (h : ∀ i x dx, cell (fun d => i d + s d) x dx = moveBy s (cell i x dx)) (idiff : I3) (st : St K) :
    CurrentVar1.run cell idiff { st with i := fun d => st.i d + s d } = moveBy s (CurrentVar1.run cell idiff st) := by
  unfold CurrentVar1.run
  simp only [segment_add h, moveBy_append, h]

theorem var1_add {s : I3} (h0 : s 0 = 0) (fnqs dt : K) (dx : R3 K) (qw : K) (v xm xp : R3 K) :
    var1_yz fnqs dt dx qw v (fun d => xm d + s d) (fun d => xp d + s d) = moveBy s (var1_yz fnqs dt dx qw v xm xp) := by
  unfold var1_yz
  simp only
  rw [← run_add (vbCell_add s h0 _ qw)]
  unfold init
  simp only [Int.floor_add_intCast, add_sub_add_right_eq_sub]
  congr 2
  · funext d; fin_cases d <;> simp [h0]
  · funext d; fin_cases d <;> simp <;> ring

open Esirkepov

/-- a direction moved by whole cells -/
def mv (s : ℤ) (a : Dir K) : Dir K := { a with lg := a.lg + s }

theorem dir1_add (s : ℤ) (um up fq : K) : dir1 (um + s) (up + s) fq = mv s (dir1 um up fq) := by
  unfold dir1 mv
  simp only [Int.floor_add_intCast, add_sub_add_right_eq_sub]
  have e1 : ∀ u : K, u + (s : K) - ((⌊u⌋ + s : ℤ) : K) = u - ⌊u⌋ := fun u => by push_cast; ring
  have e2 : ∀ a b : ℤ, minmax1 (a + s) (b + s) = minmax1 a b := by
    intro a b; unfold minmax1
    simp only [add_left_inj, add_sub_right_comm]
  simp only [e1, e2]

theorem calc_yz_1st_add (s : I3) (h0 : s 0 = 0) (y z : Dir K) (f : K) :
    calc_yz_1st (mv (s 1) y) (mv (s 2) z) f = moveBy s (calc_yz_1st y z f) := by
  unfold calc_yz_1st mv moveBy w2 w1
  simp only [List.map_append, List.map_flatMap, List.map_map, Function.comp_def, add_right_comm _ (s _), h0, add_zero]

end current

/-! ### 2nd order

`nint` rounds halves away from zero, so it does not commute with translations; but at halves both choices give the same
weights. -/

section second
variable {K : Type} [Field K] [LinearOrder K] [IsStrictOrderedRing K] [FloorRing K]

open Esirkepov

/-- weighted sum of three values -/
def quad (c : C2 K) (f : ℤ → K) : K := c.vm * f (c.l - 1) + c.v0 * f c.l + c.vp * f (c.l + 1)

/-- the weights for a given nearest node -/
def C2.at (u : K) (l : ℤ) : C2 K :=
  ⟨1/2 * (1/2 + (l - u)) * (1/2 + (l - u)), 3/4 - (l - u) * (l - u), 1/2 * (1/2 - (l - u)) * (1/2 - (l - u)), l⟩

theorem quad_at (u : K) (f : ℤ → K) (l l' : ℤ) (h : -(1/2) ≤ (l : K) - u ∧ (l : K) - u ≤ 1/2)
    (h' : -(1/2) ≤ (l' : K) - u ∧ (l' : K) - u ≤ 1/2) (hl : l ≤ l') : quad (C2.at u l) f = quad (C2.at u l') f := by
  have h1 : (l' : K) - l ≤ 1 := by linarith [h.1, h'.2]
  have h2 : l' ≤ l + 1 := by
    have : (l' : K) ≤ ((l + 1 : ℤ) : K) := by push_cast; linarith
    exact_mod_cast this
  rcases (show l' = l ∨ l' = l + 1 by omega) with e | e
  · rw [e]
  · subst e
    have : u = l + 1/2 := by
      have := h.1; have := h'.2; push_cast at *; linarith
    unfold quad C2.at
    simp only [this, show l + 1 - 1 = l by ring]
    push_cast
    ring

theorem quad_add (u : K) (s : ℤ) (f : ℤ → K) : quad (C2.set (u + s)) f = quad (C2.set u) fun n => f (n + s) := by
  have e : ∀ v : K, C2.set v = C2.at v (nint v) := fun v => rfl
  have e' : quad (C2.at u (nint u)) (fun n => f (n + s)) = quad (C2.at (u + s) (nint u + s)) f := by
    unfold quad C2.at
    simp only
    rw [show nint u + s - 1 = nint u - 1 + s by ring, show nint u + s + 1 = nint u + 1 + s by ring]
    push_cast
    ring
  rw [e, e, e']
  obtain ⟨a, b⟩ := nint_spec (u + s)
  obtain ⟨c, d⟩ := nint_spec u
  have h2 : -(1/2) ≤ ((nint u + s : ℤ) : K) - (u + s) ∧ ((nint u + s : ℤ) : K) - (u + s) ≤ 1/2 := by
    push_cast; constructor <;> linarith
  rcases le_total (nint (u + s)) (nint u + s) with h | h
  · exact quad_at _ _ _ _ ⟨a, b⟩ h2 h
  · exact (quad_at _ _ _ _ h2 ⟨a, b⟩ h).symm

theorem cf2_add (m : Fin 6) (d : Fin 3) (u : K) (s : ℤ) (f : ℤ → K) :
    quad (cf2 m d (u + s)) f = quad (cf2 m d u) fun n => f (n + s) := by
  unfold cf2
  have : (if stag m d then u + (s : K) - 1 / 2 else u + s) = (if stag m d then u - 1 / 2 else u) + s := by
    split_ifs <;> ring
  rw [this, quad_add]

theorem i2_yz_add (x : R3 K) (s : I3) (h0 : s 0 = 0) (EM : Fld K) :
    interp_2nd_yz (fun d => x d + s d) EM = interp_2nd_yz x (shiftF s EM) := by
  funext m
  have e : ∀ (gy gz : C2 K) (F : Fld K), cc2_yz gy gz F m = quad gz fun k => quad gy fun j => F m 0 j k := fun _ _ _ => rfl
  unfold interp_2nd_yz
  rw [e, e, cf2_add]
  simp only [cf2_add, shiftF, h0, add_zero]

theorem i2_xyz_add (x : R3 K) (s : I3) (EM : Fld K) :
    interp_2nd_xyz (fun d => x d + s d) EM = interp_2nd_xyz x (shiftF s EM) := by
  funext m
  have e : ∀ (gx gy gz : C2 K) (F : Fld K),
      cc2_xyz gx gy gz F m = quad gz fun k => quad gy fun j => quad gx fun i => F m i j k := fun _ _ _ _ => rfl
  unfold interp_2nd_xyz
  rw [e, e, cf2_add]
  simp only [cf2_add, shiftF]

/-- what is determined by its differences and vanishes on the far left -/
theorem eq_of_diff {f g : ℤ → K} (h : ∀ i, f i - f (i - 1) = g i - g (i - 1)) {lo : ℤ}
    (hlo : ∀ i < lo, f i = 0 ∧ g i = 0) (i : ℤ) : f i = g i := by
  have : ∀ n : ℕ, f (lo - 1 + n) = g (lo - 1 + n) := by
    intro n
    induction n with
    | zero => obtain ⟨a, b⟩ := hlo (lo - 1 + (0 : ℕ)) (by simp); rw [a, b]
    | succ n ih =>
      have := h (lo - 1 + (n + 1 : ℕ))
      rw [show lo - 1 + ((n + 1 : ℕ) : ℤ) - 1 = lo - 1 + n by push_cast; ring, ih] at this
      linear_combination this
  rcases lt_or_ge i lo with hi | hi
  · obtain ⟨a, b⟩ := hlo i hi; rw [a, b]
  · have := this (i - (lo - 1)).toNat
    rwa [show lo - 1 + ((i - (lo - 1)).toNat : ℤ) = i by omega] at this

/-- accumulations reach finitely far -/
theorem far (L : List (Add K)) : ∃ lo : ℤ, ∀ e ∈ L, lo ≤ e.i ∧ lo ≤ e.j ∧ lo ≤ e.k := by
  induction L with
  | nil => exact ⟨0, by simp⟩
  | cons e L ih =>
    obtain ⟨lo, h⟩ := ih
    refine ⟨min lo (min e.i (min e.j e.k)), fun e' he => ?_⟩
    rcases List.mem_cons.1 he with rfl | he
    · omega
    · have := h e' he; omega

theorem fieldOf_far {L : List (Add K)} {m : Fin 3} {i j k lo : ℤ} (h : ∀ e ∈ L, lo ≤ e.i ∧ lo ≤ e.j ∧ lo ≤ e.k)
    (hi : i < lo ∨ j < lo ∨ k < lo) : fieldOf L m i j k = 0 := by
  unfold fieldOf
  refine List.sum_eq_zero fun x hx => ?_
  obtain ⟨e, he, rfl⟩ := List.mem_map.1 hx
  have := h e he
  rw [if_neg]
  rintro ⟨-, a, b, c⟩
  omega

theorem far2 (L L' : List (Add K)) : ∃ lo : ℤ, (∀ e ∈ L, lo ≤ e.i ∧ lo ≤ e.j ∧ lo ≤ e.k) ∧
    ∀ e ∈ L', lo ≤ e.i ∧ lo ≤ e.j ∧ lo ≤ e.k := by
  obtain ⟨a, ha⟩ := far L
  obtain ⟨b, hb⟩ := far L'
  exact ⟨min a b, fun e he => by have := ha e he; omega, fun e he => by have := hb e he; omega⟩

theorem ext0 {L L' : List (Add K)} {m : Fin 3} {j k : ℤ}
    (h : ∀ i, fieldOf L m i j k - fieldOf L m (i - 1) j k = fieldOf L' m i j k - fieldOf L' m (i - 1) j k) (i : ℤ) :
    fieldOf L m i j k = fieldOf L' m i j k := by
  obtain ⟨lo, h1, h2⟩ := far2 L L'
  exact eq_of_diff (f := fun i => fieldOf L m i j k) (g := fun i => fieldOf L' m i j k) h (lo := lo)
    (fun i hi => ⟨fieldOf_far h1 (Or.inl hi), fieldOf_far h2 (Or.inl hi)⟩) i

theorem ext1 {L L' : List (Add K)} {m : Fin 3} {i k : ℤ}
    (h : ∀ j, fieldOf L m i j k - fieldOf L m i (j - 1) k = fieldOf L' m i j k - fieldOf L' m i (j - 1) k) (j : ℤ) :
    fieldOf L m i j k = fieldOf L' m i j k := by
  obtain ⟨lo, h1, h2⟩ := far2 L L'
  exact eq_of_diff (f := fun j => fieldOf L m i j k) (g := fun j => fieldOf L' m i j k) h (lo := lo)
    (fun j hj => ⟨fieldOf_far h1 (Or.inr (Or.inl hj)), fieldOf_far h2 (Or.inr (Or.inl hj))⟩) j

theorem ext2 {L L' : List (Add K)} {m : Fin 3} {i j : ℤ}
    (h : ∀ k, fieldOf L m i j k - fieldOf L m i j (k - 1) = fieldOf L' m i j k - fieldOf L' m i j (k - 1)) (k : ℤ) :
    fieldOf L m i j k = fieldOf L' m i j k := by
  obtain ⟨lo, h1, h2⟩ := far2 L L'
  exact eq_of_diff (f := fun k => fieldOf L m i j k) (g := fun k => fieldOf L' m i j k) h (lo := lo)
    (fun k hk => ⟨fieldOf_far h1 (Or.inr (Or.inr hk)), fieldOf_far h2 (Or.inr (Or.inr hk))⟩) k

theorem dir2_add_ok {um up : K} (h : |up - um| < 1) (fq : K) (s : ℤ) :
    DirOk (dir2 (um + s) (up + s) fq) (fun n => Spec.spline2 (up - ((n - s : ℤ) : K))) (fun n => Spec.spline2 (um - ((n - s : ℤ) : K))) := by
  have := dir2_ok (um + s) (up + s) fq (Props.nint_move (by rwa [add_sub_add_right_eq_sub]))
  have e : ∀ (u : K), (fun n : ℤ => Spec.spline2 (u + s - n)) = fun n : ℤ => Spec.spline2 (u - ((n - s : ℤ) : K)) := by
    intro u; funext n; congr 1; push_cast; ring
  rwa [e, e] at this

theorem calc_xyz_add {xm xp : R3 K} (h : ∀ d, |xp d - xm d| < 1) (fq : Fin 3 → K) (s : I3) (m : Fin 3) (i j k : ℤ) :
    fieldOf (calc_xyz (dir2 (xm 0 + s 0) (xp 0 + s 0) (fq 0)) (dir2 (xm 1 + s 1) (xp 1 + s 1) (fq 1))
      (dir2 (xm 2 + s 2) (xp 2 + s 2) (fq 2))) m i j k =
    fieldOf (moveBy s (calc_xyz (dir2 (xm 0) (xp 0) (fq 0)) (dir2 (xm 1) (xp 1) (fq 1))
      (dir2 (xm 2) (xp 2) (fq 2)))) m i j k := by
  have h0 := dir2_add_ok (h 0) (fq 0) (s 0)
  have h1 := dir2_add_ok (h 1) (fq 1) (s 1)
  have h2 := dir2_add_ok (h 2) (fq 2) (s 2)
  have g0 := dir2_ok (xm 0) (xp 0) (fq 0) (Props.nint_move (h 0))
  have g1 := dir2_ok (xm 1) (xp 1) (fq 1) (Props.nint_move (h 1))
  have g2 := dir2_ok (xm 2) (xp 2) (fq 2) (Props.nint_move (h 2))
  obtain rfl | rfl | rfl : m = 0 ∨ m = 1 ∨ m = 2 := by omega
  · refine ext0 (fun i => ?_) i
    rw [calc_xyz_0 h0 h1 h2, fieldOf_moveBy, fieldOf_moveBy, show i - 1 - s 0 = i - s 0 - 1 by ring, calc_xyz_0 g0 g1 g2]
    rfl
  · refine ext1 (fun j => ?_) j
    rw [calc_xyz_1 h0 h1 h2, fieldOf_moveBy, fieldOf_moveBy, show j - 1 - s 1 = j - s 1 - 1 by ring, calc_xyz_1 g0 g1 g2]
    rfl
  · refine ext2 (fun k => ?_) k
    rw [calc_xyz_2 h0 h1 h2, fieldOf_moveBy, fieldOf_moveBy, show k - 1 - s 2 = k - s 2 - 1 by ring, calc_xyz_2 g0 g1 g2]
    rfl

theorem yzInner_0 (y z : Dir K) (f : K) (l3 : ℤ) (ls : List ℤ) (jyh : K) (jzh : ℤ → K) (i j k : ℤ) :
    fieldOf (yzInner y z f l3 ls jyh jzh).1 0 i j k =
      Psc.ind (i = 0) * (Psc.ind (k = z.lg + l3) * (ls.map fun l2 => Psc.ind (j - y.lg = l2) * (f * w2 y z l2 l3)).sum) := by
  induction ls generalizing jyh jzh with
  | nil => simp [yzInner, fieldOf_nil]
  | cons l2 ls ih =>
    simp only [yzInner, fieldOf_cons', ind_10, ind_true, ind_20, ih, List.map_cons, List.sum_cons, Esirkepov.ind_shift j]
    ring

theorem yzOuter_0 (y z : Dir K) (f : K) (ls : List ℤ) (jzh : ℤ → K) (i j k : ℤ) :
    fieldOf (yzOuter y z f ls jzh) 0 i j k =
      Psc.ind (i = 0) * (ls.map fun l3 => Psc.ind (k - z.lg = l3) *
        ((loopLe y.lmin y.lmax).map fun l2 => Psc.ind (j - y.lg = l2) * (f * w2 y z l2 l3)).sum).sum := by
  induction ls generalizing jzh with
  | nil => simp [yzOuter, fieldOf_nil]
  | cons l3 ls ih =>
    simp only [yzOuter, fieldOf_append, yzInner_0, ih, List.map_cons, List.sum_cons, Esirkepov.ind_shift k]
    ring

theorem calc_yz2_0 {y z : Dir K} {Ay By Az Bz : ℤ → K} (hy : DirOk y Ay By) (hz : DirOk z Az Bz) (f : K) (i j k : ℤ) :
    fieldOf (calc_yz_2nd y z f) 0 i j k = Psc.ind (i = 0) * (f * W2 (Ay j) (By j) (Az k) (Bz k)) := by
  unfold calc_yz_2nd
  rw [yzOuter_0]
  simp only [sum_ind_le]
  congr 1
  by_cases h : (y.lmin ≤ j - y.lg ∧ j - y.lg ≤ y.lmax) ∧ (z.lmin ≤ k - z.lg ∧ k - z.lg ≤ z.lmax)
  · rw [if_pos h.2, if_pos h.1, w2_eq hy hz]
  · rw [w2_out hy hz j k h, mul_zero]
    rw [not_and_or] at h
    rcases h with h | h
    · rw [if_neg h]; simp
    · rw [if_neg h]

theorem calc_yz_2nd_add {xm xp : R3 K} (h : ∀ d, |xp d - xm d| < 1) (fq : Fin 3 → K) (f : K) (s : I3) (s0 : s 0 = 0)
    (m : Fin 3) (i j k : ℤ) :
    fieldOf (calc_yz_2nd (dir2 (xm 1 + s 1) (xp 1 + s 1) (fq 1)) (dir2 (xm 2 + s 2) (xp 2 + s 2) (fq 2)) f) m i j k =
    fieldOf (moveBy s (calc_yz_2nd (dir2 (xm 1) (xp 1) (fq 1)) (dir2 (xm 2) (xp 2) (fq 2)) f)) m i j k := by
  have h1 := dir2_add_ok (h 1) (fq 1) (s 1)
  have h2 := dir2_add_ok (h 2) (fq 2) (s 2)
  have g1 := dir2_ok (xm 1) (xp 1) (fq 1) (Props.nint_move (h 1))
  have g2 := dir2_ok (xm 2) (xp 2) (fq 2) (Props.nint_move (h 2))
  obtain rfl | rfl | rfl : m = 0 ∨ m = 1 ∨ m = 2 := by omega
  · rw [calc_yz2_0 h1 h2, fieldOf_moveBy, calc_yz2_0 g1 g2, s0, sub_zero]
  · refine ext1 (fun j => ?_) j
    rw [calc_yz2_1 h1 h2, fieldOf_moveBy, fieldOf_moveBy, show j - 1 - s 1 = j - s 1 - 1 by ring, calc_yz2_1 g1 g2, s0,
      sub_zero]
    rfl
  · refine ext2 (fun k => ?_) k
    rw [calc_yz2_2 h1 h2, fieldOf_moveBy, fieldOf_moveBy, show k - 1 - s 2 = k - s 2 - 1 by ring, calc_yz2_2 g1 g2, s0,
      sub_zero]
    rfl

end second

/-! ### The push configurations -/

section config

open Push Esirkepov

/-- Interpolation and deposition of a push configuration do not depend on where in the domain the origin of the patch is. -/
structure Covariant (c : Config) (P : Params) : Prop where
  interp : ∀ (x : R3 ℝ) (s : I3) (EM : Fld ℝ), (∀ d, c.inv d = true → s d = 0) →
    c.interp (fun d => x d + s d) EM = c.interp x (shiftF s EM)
  current : ∀ (qw : ℝ) (v xm xp : R3 ℝ) (s : I3), (∀ d, |xp d - xm d| < 1) →
    (∀ d, c.inv d = true → s d = 0) → ∀ m i j k,
    fieldOf (c.current P qw v (fun d => xm d + s d) (fun d => xp d + s d)) m i j k =
      fieldOf (moveBy s (c.current P qw v xm xp)) m i j k

theorem cov_split_xyz (P : Params) : Covariant cfgSplit_xyz P where
  interp x s EM _ := ec_xyz_add x s EM
  current qw v xm xp s _ h m i j k := by
    show fieldOf (Current1vb.split_xyz _ _ _ _ _ _ _) m i j k = fieldOf (moveBy s (Current1vb.split_xyz _ _ _ _ _ _ _)) m i j k
    unfold Current1vb.split_xyz
    rw [split_add (inv := ![false, false, false]) h (moves_xyz s _)]

theorem cov_split_yz (P : Params) : Covariant cfgSplit_yz P where
  interp x s EM h := ec_yz_add x s (h 0 rfl) EM
  current qw v xm xp s _ h m i j k := by
    show fieldOf (Current1vb.split_yz _ _ _ _ _ _ _) m i j k = fieldOf (moveBy s (Current1vb.split_yz _ _ _ _ _ _ _)) m i j k
    unfold Current1vb.split_yz
    rw [split_add (inv := ![true, false, false]) h (moves_yz s _)]

theorem cov_var1_yz (P : Params) : Covariant cfgVar1_yz P where
  interp x s EM h := ec_yz_add x s (h 0 rfl) EM
  current qw v xm xp s _ h m i j k := by
    show fieldOf (CurrentVar1.var1_yz _ _ _ _ _ _ _) m i j k = fieldOf (moveBy s (CurrentVar1.var1_yz _ _ _ _ _ _ _)) m i j k
    rw [var1_add (h 0 rfl)]

theorem cov_esirkepov1_yz (P : Params) : Covariant cfgEsirkepov1_yz P where
  interp x s EM h := i1_yz_add x s (h 0 rfl) EM
  current qw v xm xp s _ h m i j k := by
    show fieldOf (calc_yz_1st _ _ _) m i j k = fieldOf (moveBy s (calc_yz_1st _ _ _)) m i j k
    simp only [dir1_add]
    rw [calc_yz_1st_add s (h 0 rfl)]

theorem cov_esirkepov2_xyz (P : Params) : Covariant cfgEsirkepov2_xyz P where
  interp x s EM _ := i2_xyz_add x s EM
  current qw v xm xp s hm _ m i j k := calc_xyz_add hm (fun d => fq P.fnqs P.dt P.dx qw d) s m i j k

theorem cov_esirkepov2_yz (P : Params) : Covariant cfgEsirkepov2_yz P where
  interp x s EM h := i2_yz_add x s (h 0 rfl) EM
  current qw v xm xp s hm h m i j k :=
    calc_yz_2nd_add hm (fun d => fq P.fnqs P.dt P.dx qw d) (v 0 * qw * P.fnqs) s (h 0 rfl) m i j k

end config

end Psc.Translate
