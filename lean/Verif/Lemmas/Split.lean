import Verif.Lemmas.Continuity
import Mathlib.Data.Fintype.Basic

namespace Psc

open Spec Current1vb

variable {K : Type*} [Field K] [LinearOrder K] [IsStrictOrderedRing K]

/-- two coordinates lie in a common closed cell -/
def SameCell (a b : K) : Prop :=
  ∃ c : ℤ, ((c : K) ≤ a ∧ a ≤ c + 1) ∧ ((c : K) ≤ b ∧ b ≤ c + 1)

theorem SameCell.convex {a b : K} (h : SameCell a b) {t : K} (h0 : 0 ≤ t) (h1 : t ≤ 1) :
    SameCell a (a + t * (b - a)) ∧ SameCell (a + t * (b - a)) b := by
  obtain ⟨c, ⟨ha0, ha1⟩, hb0, hb1⟩ := h
  have e : a + t * (b - a) = (1 - t) * a + t * b := by ring
  have l : (c : K) ≤ a + t * (b - a) := by
    rw [e]; nlinarith
  have u : a + t * (b - a) ≤ c + 1 := by
    rw [e]; nlinarith
  exact ⟨⟨c, ⟨ha0, ha1⟩, l, u⟩, ⟨c, ⟨l, u⟩, hb0, hb1⟩⟩

variable [FloorRing K]

theorem SameCell.avg {a b : K} (h : SameCell a b) :
    ((⌊1/2 * (b + a)⌋ : K) ≤ a ∧ a ≤ ⌊1/2 * (b + a)⌋ + 1) ∧
    ((⌊1/2 * (b + a)⌋ : K) ≤ b ∧ b ≤ ⌊1/2 * (b + a)⌋ + 1) := by
  obtain ⟨c, ⟨ha0, ha1⟩, hb0, hb1⟩ := h
  by_cases hlt : 1/2 * (b + a) < c + 1
  · have : ⌊1/2 * (b + a)⌋ = c := by
      rw [Int.floor_eq_iff]; constructor <;> linarith
    rw [this]; exact ⟨⟨ha0, ha1⟩, hb0, hb1⟩
  · have hb : b = c + 1 := by linarith
    have ha : a = c + 1 := by linarith
    have : ⌊1/2 * (b + a)⌋ = c + 1 := by
      rw [Int.floor_eq_iff]; push_cast; constructor <;> linarith
    rw [this, ha, hb]; push_cast
    refine ⟨⟨le_refl _, by linarith⟩, le_refl _, by linarith⟩

/-- cell indices differ by at most one -/
def Adj (a b : K) : Prop := |⌊a⌋ - ⌊b⌋| ≤ 1

theorem SameCell.of_floor_eq {a b : K} (h : ⌊b⌋ = ⌊a⌋) : SameCell a b :=
  ⟨⌊a⌋, ⟨Int.floor_le a, (Int.lt_floor_add_one a).le⟩,
    ⟨by rw [← h]; exact Int.floor_le b, by rw [← h]; exact (Int.lt_floor_add_one b).le⟩⟩

theorem Adj.convex {a b : K} (h : Adj a b) {t : K} (h0 : 0 ≤ t) (h1 : t ≤ 1) :
    Adj a (a + t * (b - a)) ∧ Adj (a + t * (b - a)) b := by
  unfold Adj at *
  rw [abs_le] at *
  rcases le_total a b with hab | hab
  · have h3 : a ≤ a + t * (b - a) := by nlinarith
    have h4 : a + t * (b - a) ≤ b := by nlinarith
    have := Int.floor_mono h3
    have := Int.floor_mono h4
    rw [abs_le]
    constructor <;> constructor <;> omega
  · have h3 : a + t * (b - a) ≤ a := by nlinarith
    have h4 : b ≤ a + t * (b - a) := by nlinarith
    have := Int.floor_mono h3
    have := Int.floor_mono h4
    rw [abs_le]
    constructor <;> constructor <;> omega

/-- crossing one boundary: the split point and the fraction -/
theorem cross {a b : K} (h : Adj a b) (hne : ⌊b⌋ ≠ ⌊a⌋) :
    let bnd : K := ((max ⌊a⌋ ⌊b⌋ : ℤ) : K)
    let t : K := (bnd - a) / (b - a)
    0 ≤ t ∧ t ≤ 1 ∧ SameCell a bnd ∧ SameCell bnd b := by
  unfold Adj at h
  rw [abs_le] at h
  have ha0 := Int.floor_le a
  have ha1 := Int.lt_floor_add_one a
  have hb0 := Int.floor_le b
  have hb1 := Int.lt_floor_add_one b
  intro bnd t
  rcases lt_or_gt_of_ne hne with hlt | hgt
  · -- b below a
    have e : ⌊a⌋ = ⌊b⌋ + 1 := by omega
    have hm : bnd = (⌊b⌋ : K) + 1 := by
      simp only [bnd]; rw [max_eq_left (by omega), e]; push_cast; rfl
    have e' : (⌊a⌋ : K) = ⌊b⌋ + 1 := by rw [e]; push_cast; rfl
    rw [e'] at ha0 ha1
    have hd : b - a < 0 := by linarith
    refine ⟨?_, ?_, ⟨⌊b⌋ + 1, ?_, ?_⟩, ⟨⌊b⌋, ?_, ?_⟩⟩
    · exact div_nonneg_of_nonpos (by rw [hm]; linarith) hd.le
    · rw [div_le_one_of_neg hd]; rw [hm]; linarith
    · push_cast; constructor <;> linarith
    · push_cast; rw [hm]; constructor <;> linarith
    · rw [hm]; constructor <;> linarith
    · constructor <;> linarith
  · have e : ⌊b⌋ = ⌊a⌋ + 1 := by omega
    have hm : bnd = (⌊a⌋ : K) + 1 := by
      simp only [bnd]; rw [max_eq_right (by omega), e]; push_cast; rfl
    have e' : (⌊b⌋ : K) = ⌊a⌋ + 1 := by rw [e]; push_cast; rfl
    rw [e'] at hb0 hb1
    have hd : 0 < b - a := by linarith
    refine ⟨?_, ?_, ⟨⌊a⌋, ?_, ?_⟩, ⟨⌊a⌋ + 1, ?_, ?_⟩⟩
    · exact div_nonneg (by rw [hm]; linarith) hd.le
    · rw [div_le_one hd]; rw [hm]; linarith
    · constructor <;> linarith
    · rw [hm]; constructor <;> linarith
    · push_cast; rw [hm]; constructor <;> linarith
    · push_cast; constructor <;> linarith

/-- State of a segment while splitting: directions in `done` are already within one cell, the other
active directions cross at most one boundary. -/
def SegOk (act done : Fin 3 → Bool) (xm xp : R3 K) : Prop :=
  ∀ d, act d = true → if done d then SameCell (xm d) (xp d) else Adj (xm d) (xp d)

theorem splitDim_continuity {act done : Fin 3 → Bool} {dx : R3 K} {dt : K}
    {rho : R3 K → ℤ → ℤ → ℤ → K} {inv : Bool} {dim : Fin 3} (hinv : inv = !act dim)
    {next : R3 K → R3 K → List (Add K)} {Q : R3 K → R3 K → Prop}
    (hQ : ∀ xm xp t, act dim = true → Q xm xp → 0 ≤ t → t ≤ 1 →
      Q xm (fun d => if d = dim then ((max ⌊xm dim⌋ ⌊xp dim⌋ : ℤ) : K)
            else xm d + t * (xp d - xm d)) ∧
      Q (fun d => if d = dim then ((max ⌊xm dim⌋ ⌊xp dim⌋ : ℤ) : K)
            else xm d + t * (xp d - xm d)) xp)
    (hnext : ∀ xm xp, Q xm xp → SegOk act (fun d => done d || d == dim) xm xp →
      Continuity act dx dt (rho xm) (rho xp) (fieldOf (next xm xp)))
    (xm xp : R3 K) (hq : Q xm xp) (h : SegOk act done xm xp) :
    Continuity act dx dt (rho xm) (rho xp) (fieldOf (splitDim inv dim next xm xp)) := by
  unfold splitDim
  simp only
  split_ifs with hc
  · apply hnext _ _ hq
    intro d hd
    have hd' := h d hd
    by_cases hdd : d = dim
    · subst hdd
      simp only [beq_self_eq_true, Bool.or_true, if_true]
      rcases hc with hc | hc
      · rw [hinv, hd] at hc; simp at hc
      · exact SameCell.of_floor_eq hc
    · simpa [hdd] using hd'
  · push Not at hc
    obtain ⟨hc1, hc2⟩ := hc
    have hact : act dim = true := by
      by_contra hne
      simp only [Bool.not_eq_true] at hne
      rw [hinv, hne] at hc1; simp at hc1
    have hadj : Adj (xm dim) (xp dim) := by
      have := h dim hact
      split_ifs at this with hdn
      · obtain ⟨c, ⟨ha0, ha1⟩, hb0, hb1⟩ := this
        unfold Adj; rw [abs_le]
        have h1 := Int.le_floor.mpr ha0
        have h2 := Int.le_floor.mpr hb0
        have h3 : ⌊xm dim⌋ ≤ c + 1 := by
          have := Int.floor_mono ha1; simpa using this
        have h4 : ⌊xp dim⌋ ≤ c + 1 := by
          have := Int.floor_mono hb1; simpa using this
        constructor <;> omega
      · exact this
    obtain ⟨ht0, ht1, hs1, hs2⟩ := cross hadj hc2
    obtain ⟨hq1, hq2⟩ := hQ xm xp _ hact hq ht0 ht1
    apply Continuity.append (r1 := rho (splitX1 dim ⌊xm dim⌋ ⌊xp dim⌋ xm xp))
    · apply hnext _ _ hq1
      intro d hd
      have hd' := h d hd
      by_cases hdd : d = dim
      · subst hdd
        simpa [splitX1] using hs1
      · simp only [splitX1, hdd, if_false, beq_iff_eq, Bool.or_eq_true, or_false]
        split_ifs at hd' ⊢ with hdn
        · exact (hd'.convex ht0 ht1).1
        · exact (hd'.convex ht0 ht1).1
    · apply hnext _ _ hq2
      intro d hd
      have hd' := h d hd
      by_cases hdd : d = dim
      · subst hdd
        simpa [splitX1] using hs2
      · simp only [splitX1, hdd, if_false, beq_iff_eq, Bool.or_eq_true, or_false]
        split_ifs at hd' ⊢ with hdn
        · exact (hd'.convex ht0 ht1).2
        · exact (hd'.convex ht0 ht1).2

theorem oneCell_xyz (fnqs dt : K) (dx : R3 K) (hdt : dt ≠ 0) (hdx : ∀ d, dx d ≠ 0) (qw : K)
    (xm xp : R3 K) (h : ∀ d, SameCell (xm d) (xp d)) :
    Continuity xyz dx dt (rho3 (fnqs * qw) xm) (rho3 (fnqs * qw) xp)
      (fieldOf (oneCell (dep_xyz (fnqsVec fnqs dt dx)) qw xm xp)) := by
  unfold oneCell
  exact dep_xyz_continuity fnqs dt dx hdt hdx qw _ xm xp (fun d => (h d).avg.1.1)
    (fun d => (h d).avg.1.2) (fun d => (h d).avg.2.1) (fun d => (h d).avg.2.2)

/-- Splitting in all three directions preserves continuity of the one-cell deposit. -/
theorem splitZ_continuity {act : Fin 3 → Bool} {dx : R3 K} {dt : K}
    {rho : R3 K → ℤ → ℤ → ℤ → K} {inv : Fin 3 → Bool} (hinv : ∀ d, inv d = !act d)
    {dep : Dep K} {qw : K} {Q : R3 K → R3 K → Prop}
    (hQ : ∀ dim xm xp t, act dim = true → Q xm xp → 0 ≤ t → t ≤ 1 →
      Q xm (fun d => if d = dim then ((max ⌊xm dim⌋ ⌊xp dim⌋ : ℤ) : K)
            else xm d + t * (xp d - xm d)) ∧
      Q (fun d => if d = dim then ((max ⌊xm dim⌋ ⌊xp dim⌋ : ℤ) : K)
            else xm d + t * (xp d - xm d)) xp)
    (hone : ∀ xm xp, Q xm xp → (∀ d, act d = true → SameCell (xm d) (xp d)) →
      Continuity act dx dt (rho xm) (rho xp) (fieldOf (oneCell dep qw xm xp)))
    (xm xp : R3 K) (hq : Q xm xp) (h : ∀ d, act d = true → Adj (xm d) (xp d)) :
    Continuity act dx dt (rho xm) (rho xp) (fieldOf (splitZ inv dep qw xm xp)) := by
  unfold splitZ
  refine splitDim_continuity (done := fun _ => false) (Q := Q) (hinv 2) (hQ 2) ?_ xm xp hq ?_
  · intro xm xp hq h2
    refine splitDim_continuity (Q := Q) (hinv 1) (hQ 1) ?_ xm xp hq h2
    intro xm xp hq h1
    refine splitDim_continuity (Q := Q) (hinv 0) (hQ 0) ?_ xm xp hq h1
    intro xm xp hq h0
    apply hone _ _ hq
    intro d hd
    have := h0 d hd
    fin_cases d <;> simpa using this
  · intro d hd
    simpa using h d hd

/-! ### reduced dimensions -/

/-- charge density in the yz plane (x index 0) -/
def rho_yz (q : K) (x : R3 K) (i j k : ℤ) : K :=
  q * (ind (i = 0) * tent (x 1 - j) * tent (x 2 - k))

/-- charge density in the xz plane (y index 0) -/
def rho_xz (q : K) (x : R3 K) (i j k : ℤ) : K :=
  q * (tent (x 0 - i) * ind (j = 0) * tent (x 2 - k))

omit [FloorRing K] in
theorem dep_yz_1 (f : R3 K) (c : I3) (qw : K) (d xa : R3 K) (i j k : ℤ) :
    fieldOf (dep_yz f c qw d xa) 1 i j k = qw * f 1 * (ind (j = c 1) *
      (d 1 * (lw (c 2) k (xa 2) * ind (i = c 0)))) := by
  simp only [dep_yz, fieldOf_cons', fieldOf_nil, ind_true, ind_01,
    ind_02, ind_10, ind_12, ind_20, ind_21, one_mul, zero_mul, zero_add, add_zero, lw]
  ring

omit [FloorRing K] in
theorem dep_yz_2 (f : R3 K) (c : I3) (qw : K) (d xa : R3 K) (i j k : ℤ) :
    fieldOf (dep_yz f c qw d xa) 2 i j k = qw * f 2 * (ind (k = c 2) *
      (d 2 * (lw (c 1) j (xa 1) * ind (i = c 0)))) := by
  simp only [dep_yz, fieldOf_cons', fieldOf_nil, ind_true, ind_01,
    ind_02, ind_10, ind_12, ind_20, ind_21, one_mul, zero_mul, zero_add, add_zero, lw]
  ring

omit [FloorRing K] in
theorem dep_xz_0 (f : R3 K) (c : I3) (qw : K) (d xa : R3 K) (i j k : ℤ) :
    fieldOf (dep_xz f c qw d xa) 0 i j k = qw * f 0 * (ind (i = c 0) *
      (d 0 * (lw (c 2) k (xa 2) * ind (j = c 1)))) := by
  simp only [dep_xz, fieldOf_cons', fieldOf_nil, ind_true, ind_01,
    ind_02, ind_10, ind_12, ind_20, ind_21, one_mul, zero_mul, zero_add, add_zero, lw]
  ring

omit [FloorRing K] in
theorem dep_xz_2 (f : R3 K) (c : I3) (qw : K) (d xa : R3 K) (i j k : ℤ) :
    fieldOf (dep_xz f c qw d xa) 2 i j k = qw * f 2 * (ind (k = c 2) *
      (d 2 * (lw (c 0) i (xa 0) * ind (j = c 1)))) := by
  simp only [dep_xz, fieldOf_cons', fieldOf_nil, ind_true, ind_01,
    ind_02, ind_10, ind_12, ind_20, ind_21, one_mul, zero_mul, zero_add, add_zero, lw]
  ring

theorem avg_floor_zero {a b : K} (ha : 0 ≤ a ∧ a < 1) (hb : 0 ≤ b ∧ b < 1) :
    ⌊1/2 * (b + a)⌋ = 0 := by
  rw [Int.floor_eq_iff]; push_cast; constructor <;> linarith [ha.1, ha.2, hb.1, hb.2]

theorem oneCell_yz (fnqs dt : K) (dx : R3 K) (hdt : dt ≠ 0) (hdx : ∀ d, dx d ≠ 0) (qw : K)
    (xm xp : R3 K) (h0 : (0 ≤ xm 0 ∧ xm 0 < 1) ∧ (0 ≤ xp 0 ∧ xp 0 < 1))
    (h : ∀ d, yz d = true → SameCell (xm d) (xp d)) :
    Continuity yz dx dt (rho_yz (fnqs * qw) xm) (rho_yz (fnqs * qw) xp)
      (fieldOf (oneCell (dep_yz (fnqsVec fnqs dt dx)) qw xm xp)) := by
  have h1 := (h 1 rfl).avg
  have h2 := (h 2 rfl).avg
  intro i j k
  simp only [rho_yz, tent_lw h1.1.1 h1.1.2, tent_lw h1.2.1 h1.2.2, tent_lw h2.1.1 h2.1.2,
    tent_lw h2.2.1 h2.2.2]
  simp only [oneCell, Spec.div, yz, dep_yz_1, dep_yz_2, fnqsVec, Fin.isValue, Matrix.cons_val,
    if_true, lw_avg, ind_pred, Bool.false_eq_true, if_false, zero_add, avg_floor_zero h0.1 h0.2]
  generalize ⌊1/2 * (xp 1 + xm 1)⌋ = c1
  generalize ⌊1/2 * (xp 2 + xm 2)⌋ = c2
  rw [mul_add, scale_cancel hdt (hdx _), scale_cancel hdt (hdx _)]
  have f1 : (ind (j = c1 + 1) : K) = dw c1 j + ind (j = c1) := by unfold dw; ring
  have f2 : (ind (k = c2 + 1) : K) = dw c2 k + ind (k = c2) := by unfold dw; ring
  rw [f1, f2]
  have e1 := lw_diff c1 j (xp 1) (xm 1)
  have e2 := lw_diff c2 k (xp 2) (xm 2)
  linear_combination (-(fnqs * qw) * ind (i = 0) *
    ((lw c2 k (xp 2 - c2) + lw c2 k (xm 2 - c2)) / 2)) * e1 -
    (fnqs * qw) * ind (i = 0) *
    ((lw c1 j (xp 1 - c1) + lw c1 j (xm 1 - c1)) / 2) * e2

theorem oneCell_xz (fnqs dt : K) (dx : R3 K) (hdt : dt ≠ 0) (hdx : ∀ d, dx d ≠ 0) (qw : K)
    (xm xp : R3 K) (h0 : (0 ≤ xm 1 ∧ xm 1 < 1) ∧ (0 ≤ xp 1 ∧ xp 1 < 1))
    (h : ∀ d, xz d = true → SameCell (xm d) (xp d)) :
    Continuity xz dx dt (rho_xz (fnqs * qw) xm) (rho_xz (fnqs * qw) xp)
      (fieldOf (oneCell (dep_xz (fnqsVec fnqs dt dx)) qw xm xp)) := by
  have h1 := (h 0 rfl).avg
  have h2 := (h 2 rfl).avg
  intro i j k
  simp only [rho_xz, tent_lw h1.1.1 h1.1.2, tent_lw h1.2.1 h1.2.2, tent_lw h2.1.1 h2.1.2,
    tent_lw h2.2.1 h2.2.2]
  simp only [oneCell, Spec.div, xz, dep_xz_0, dep_xz_2, fnqsVec, Fin.isValue, Matrix.cons_val,
    if_true, lw_avg, ind_pred, Bool.false_eq_true, if_false, add_zero, avg_floor_zero h0.1 h0.2]
  generalize ⌊1/2 * (xp 0 + xm 0)⌋ = c1
  generalize ⌊1/2 * (xp 2 + xm 2)⌋ = c2
  rw [mul_add, scale_cancel hdt (hdx _), scale_cancel hdt (hdx _)]
  have f1 : (ind (i = c1 + 1) : K) = dw c1 i + ind (i = c1) := by unfold dw; ring
  have f2 : (ind (k = c2 + 1) : K) = dw c2 k + ind (k = c2) := by unfold dw; ring
  rw [f1, f2]
  have e1 := lw_diff c1 i (xp 0) (xm 0)
  have e2 := lw_diff c2 k (xp 2) (xm 2)
  linear_combination (-(fnqs * qw) * ind (j = 0) *
    ((lw c2 k (xp 2 - c2) + lw c2 k (xm 2 - c2)) / 2)) * e1 -
    (fnqs * qw) * ind (j = 0) *
    ((lw c1 i (xp 0 - c1) + lw c1 i (xm 0 - c1)) / 2) * e2

/-! ### relation of the deposited density to the tent specification -/

theorem nc1_xyz_rho (x : R3 K) (q : K) (i j k : ℤ) :
    fieldOf (Deposit.nc1_xyz x q) 0 i j k = rho3 q x i j k := by
  have hb : ∀ d, ((⌊x d⌋ : ℤ) : K) ≤ x d := fun d => Int.floor_le _
  have hu : ∀ d, x d ≤ ((⌊x d⌋ : ℤ) : K) + 1 := fun d => (Int.lt_floor_add_one _).le
  simp only [rho3, tent_cell (hb _) (hu _), Deposit.nc1_xyz, Deposit.first_xyz, fieldOf_cons',
    fieldOf_nil, ind_true, one_mul, add_zero]
  ring

theorem nc1_yz_rho (x : R3 K) (q : K) (i j k : ℤ) :
    fieldOf (Deposit.nc1_yz x q) 0 i j k = rho_yz q x i j k := by
  have hb : ∀ d, ((⌊x d⌋ : ℤ) : K) ≤ x d := fun d => Int.floor_le _
  have hu : ∀ d, x d ≤ ((⌊x d⌋ : ℤ) : K) + 1 := fun d => (Int.lt_floor_add_one _).le
  simp only [rho_yz, tent_cell (hb _) (hu _), Deposit.nc1_yz, Deposit.first_yz, fieldOf_cons',
    fieldOf_nil, ind_true, one_mul, add_zero]
  ring

end Psc
