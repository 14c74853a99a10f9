import Verif.Lemmas.Split
import Verif.Model.CurrentVar1

namespace Psc

open Spec CurrentVar1

variable {K : Type*} [Field K] [LinearOrder K] [IsStrictOrderedRing K]

/-- charge density of a particle in cell `i` at centre-relative position `x` -/
def rhoSt (q : K) (i : I3) (x : R3 K) (a b c : ℤ) : K :=
  rho_yz q (fun d => i d + 1/2 + x d) a b c

/-- A per-segment deposit that, for moves inside one closed cell, satisfies continuity. -/
def CellOk (dx : R3 K) (dt q : K) (cell : I3 → R3 K → R3 K → List (Add K)) : Prop :=
  ∀ (i : I3) (x d : R3 K), |x 1| ≤ 1/2 → |x 2| ≤ 1/2 → |x 1 + d 1| ≤ 1/2 → |x 2 + d 2| ≤ 1/2 →
    Continuity yz dx dt (rhoSt q i x) (rhoSt q i (fun e => x e + d e)) (fieldOf (cell i x d))

theorem plane_identity (A1 A2 B1 B2 : K) :
    A1 * A2 - B1 * B2 = (A1 - B1) * ((A2 + B2) / 2) + (A2 - B2) * ((A1 + B1) / 2) := by ring

theorem tent_half {x : K} (i n : ℤ) (h : |x| ≤ 1/2) :
    tent (i + 1/2 + x - n) = lw i n (1/2 + x) := by
  rw [abs_le] at h
  rw [tent_lw (c := i) (by linarith) (by linarith)]
  congr 1; ring

theorem vbCell_field1 (f : R3 K) (qw : K) (c : I3) (x d : R3 K) (i j k : ℤ) :
    fieldOf (vbCell f qw c x d) 1 i j k = qw * f 1 * (ind (j = c 1) *
      (d 1 * (lw (c 2) k (1/2 + x 2 + 1/2 * d 2) * ind (i = 0)))) := by
  simp only [vbCell, fieldOf_cons', fieldOf_nil, ind_true, ind_01,
    ind_02, ind_10, ind_12, ind_20, ind_21, one_mul, zero_mul, zero_add, add_zero, lw]
  ring

theorem vbCell_field2 (f : R3 K) (qw : K) (c : I3) (x d : R3 K) (i j k : ℤ) :
    fieldOf (vbCell f qw c x d) 2 i j k = qw * f 2 * (ind (k = c 2) *
      (d 2 * (lw (c 1) j (1/2 + x 1 + 1/2 * d 1) * ind (i = 0)))) := by
  simp only [vbCell, fieldOf_cons', fieldOf_nil, ind_true, ind_01,
    ind_02, ind_10, ind_12, ind_20, ind_21, one_mul, zero_mul, zero_add, add_zero, lw]
  ring

theorem cell2d_field1 (fnq : R3 K) (c : I3) (x d : R3 K) (i j k : ℤ) :
    fieldOf (cell2d fnq c x d) 1 i j k = fnq 1 * (ind (j = c 1) *
      (d 1 * (lw (c 2) k (1/2 + x 2 + 1/2 * d 2) * ind (i = 0)))) := by
  simp only [cell2d, fieldOf_cons', fieldOf_nil, ind_true, ind_01,
    ind_02, ind_10, ind_12, ind_20, ind_21, one_mul, zero_mul, zero_add, add_zero, lw]
  ring

theorem cell2d_field2 (fnq : R3 K) (c : I3) (x d : R3 K) (i j k : ℤ) :
    fieldOf (cell2d fnq c x d) 2 i j k = fnq 2 * (ind (k = c 2) *
      (d 2 * (lw (c 1) j (1/2 + x 1 + 1/2 * d 1) * ind (i = 0)))) := by
  simp only [cell2d, fieldOf_cons', fieldOf_nil, ind_true, ind_01,
    ind_02, ind_10, ind_12, ind_20, ind_21, one_mul, zero_mul, zero_add, add_zero, lw]
  ring

theorem cellOk_of_fields (fnqs dt : K) (dx : R3 K) (hdt : dt ≠ 0) (hdx : ∀ d, dx d ≠ 0) (qw : K)
    {cell : I3 → R3 K → R3 K → List (Add K)}
    (h1 : ∀ (c : I3) (x d : R3 K) (i j k : ℤ), fieldOf (cell c x d) 1 i j k =
      qw * (dx 1 * fnqs / dt) * (ind (j = c 1) *
      (d 1 * (lw (c 2) k (1/2 + x 2 + 1/2 * d 2) * ind (i = 0)))))
    (h2 : ∀ (c : I3) (x d : R3 K) (i j k : ℤ), fieldOf (cell c x d) 2 i j k =
      qw * (dx 2 * fnqs / dt) * (ind (k = c 2) *
      (d 2 * (lw (c 1) j (1/2 + x 1 + 1/2 * d 1) * ind (i = 0))))) :
    CellOk dx dt (fnqs * qw) cell := by
  intro c x d hx1 hx2 hp1 hp2 i j k
  have e : ∀ a b e : K, a + 1/2 + (b + e) = a + 1/2 + (b + e) := fun _ _ _ => rfl
  simp only [rhoSt, rho_yz, tent_half _ _ hx1, tent_half _ _ hx2, tent_half _ _ hp1,
    tent_half _ _ hp2]
  simp only [Spec.div, yz, h1, h2, Fin.isValue, Matrix.cons_val,
    if_true, ind_pred, Bool.false_eq_true, if_false, zero_add]
  have hy := hdx 1
  have hz := hdx 2
  have sc : ∀ E F a : K, a ≠ 0 →
      dt * ((qw * (a * fnqs / dt) * E - qw * (a * fnqs / dt) * F) / a) = fnqs * qw * (E - F) := by
    intro E F a ha; field_simp
  rw [mul_add, sc _ _ _ hy, sc _ _ _ hz]
  simp only [lw]
  ring

theorem rhoSt_congr {q : K} {i i' : I3} {x x' : R3 K}
    (h1 : (i 1 : K) + x 1 = i' 1 + x' 1) (h2 : (i 2 : K) + x 2 = i' 2 + x' 2) :
    rhoSt q i x = rhoSt q i' x' := by
  funext a b c
  have e1 : (i 1 : K) + 1/2 + x 1 = i' 1 + 1/2 + x' 1 := by linarith
  have e2 : (i 2 : K) + 1/2 + x 2 = i' 2 + 1/2 + x' 2 := by linarith
  simp only [rhoSt, rho_yz, e1, e2]

theorem abs_convex {x d t b : K} (hx : |x| ≤ b) (hd : |x + d| ≤ b) (h0 : 0 ≤ t) (h1 : t ≤ 1) :
    |x + t * d| ≤ b := by
  rw [abs_le] at *
  have e : x + t * d = (1 - t) * x + t * (x + d) := by ring
  rw [e]
  constructor <;> nlinarith

/-- The crossing displacement is a fraction `t` of the remaining displacement. -/
theorem calcDx1_spec {x dx : R3 K} {idiff : I3} {f o : Fin 3}
    (hfo : (f = 1 ∧ o = 2) ∨ (f = 2 ∧ o = 1)) (hidiff : idiff f ≠ 0) {t : K}
    (heq : 1/2 * (idiff f : K) - x f = t * dx f) (h0 : dx f = 0 → t = 0) :
    calcDx1 x dx (offFor idiff f) f = t * dx f ∧ calcDx1 x dx (offFor idiff f) o = t * dx o := by
  rcases hfo with ⟨rfl, rfl⟩ | ⟨rfl, rfl⟩
  · have e2 : offFor idiff 1 2 = 0 := by simp [offFor]
    have e1 : offFor idiff 1 1 = idiff 1 := by simp [offFor]
    unfold calcDx1
    rw [if_pos e2, e1]
    by_cases hz : dx 1 = 0
    · rw [if_pos hz]
      rw [h0 hz, zero_mul] at heq
      simp only [heq, h0 hz, Matrix.cons_val, zero_mul, and_self]
    · rw [if_neg hz]
      simp only [heq, Matrix.cons_val]
      refine ⟨trivial, ?_⟩
      field_simp
  · have e2 : offFor idiff 2 2 = idiff 2 := by simp [offFor]
    unfold calcDx1
    rw [if_neg (by rw [e2]; exact hidiff), e2]
    by_cases hz : dx 2 = 0
    · rw [if_pos hz]
      rw [h0 hz, zero_mul] at heq
      simp only [heq, h0 hz, Matrix.cons_val, zero_mul, and_self]
    · rw [if_neg hz]
      simp only [heq, Matrix.cons_val]
      refine ⟨trivial, ?_⟩
      field_simp

theorem seg_step {dx : R3 K} {dt q : K} {cell : I3 → R3 K → R3 K → List (Add K)}
    (hc : CellOk dx dt q cell) {s : St K} {idiff : I3} {f o : Fin 3}
    (hfo : (f = 1 ∧ o = 2) ∨ (f = 2 ∧ o = 1)) (hidiff : idiff f = 1 ∨ idiff f = -1) {t : K}
    (hxf : |s.x f| ≤ 1/2) (hxo : |s.x o| ≤ 1/2)
    (heq : 1/2 * (idiff f : K) - s.x f = t * s.dx f) (h0 : s.dx f = 0 → t = 0)
    (ho : |s.x o + t * s.dx o| ≤ 1/2) :
    let r := segment cell idiff s (some f)
    Continuity yz dx dt (rhoSt q s.i s.x) (rhoSt q r.2.i r.2.x) (fieldOf r.1) ∧
      r.2.x f = -(1/2) * idiff f ∧ r.2.x o = s.x o + t * s.dx o ∧
      r.2.dx f = (1 - t) * s.dx f ∧ r.2.dx o = (1 - t) * s.dx o ∧
      (r.2.i f = s.i f + idiff f) ∧ r.2.i o = s.i o := by
  have hne : idiff f ≠ 0 := by rcases hidiff with h | h <;> omega
  obtain ⟨ef, eo⟩ := calcDx1_spec (x := s.x) (dx := s.dx) hfo hne heq h0
  have hb : |1/2 * (idiff f : K)| ≤ 1/2 := by
    rcases hidiff with h | h <;> rw [h] <;> norm_num
  have hf : |s.x f + calcDx1 s.x s.dx (offFor idiff f) f| ≤ 1/2 := by
    rw [ef, ← heq]; simpa using hb
  have ho' : |s.x o + calcDx1 s.x s.dx (offFor idiff f) o| ≤ 1/2 := by rw [eo]; exact ho
  intro r
  have hr1 : r.1 = cell s.i s.x (calcDx1 s.x s.dx (offFor idiff f)) := rfl
  have hr2 : r.2 = upd s (calcDx1 s.x s.dx (offFor idiff f)) (offFor idiff f) := rfl
  have hoff : offFor idiff f f = idiff f := by simp [offFor]
  have hoffo : offFor idiff f o = 0 := by
    rcases hfo with ⟨rfl, rfl⟩ | ⟨rfl, rfl⟩ <;> simp [offFor]
  have xf : r.2.x f = s.x f + (calcDx1 s.x s.dx (offFor idiff f) f - offFor idiff f f) := by
    rw [hr2]; rcases hfo with ⟨rfl, rfl⟩ | ⟨rfl, rfl⟩ <;> simp [upd]
  have xo : r.2.x o = s.x o + (calcDx1 s.x s.dx (offFor idiff f) o - offFor idiff f o) := by
    rw [hr2]; rcases hfo with ⟨rfl, rfl⟩ | ⟨rfl, rfl⟩ <;> simp [upd]
  have df : r.2.dx f = s.dx f - calcDx1 s.x s.dx (offFor idiff f) f := by
    rw [hr2]; rcases hfo with ⟨rfl, rfl⟩ | ⟨rfl, rfl⟩ <;> simp [upd]
  have dO : r.2.dx o = s.dx o - calcDx1 s.x s.dx (offFor idiff f) o := by
    rw [hr2]; rcases hfo with ⟨rfl, rfl⟩ | ⟨rfl, rfl⟩ <;> simp [upd]
  have i_f : r.2.i f = s.i f + offFor idiff f f := by
    rw [hr2]; rcases hfo with ⟨rfl, rfl⟩ | ⟨rfl, rfl⟩ <;> simp [upd]
  have io : r.2.i o = s.i o + offFor idiff f o := by
    rw [hr2]; rcases hfo with ⟨rfl, rfl⟩ | ⟨rfl, rfl⟩ <;> simp [upd]
  rw [hoff] at xf i_f
  rw [hoffo] at xo io
  refine ⟨?_, ?_, ?_, ?_, ?_, i_f, ?_⟩
  · rw [hr1]
    have key : rhoSt q r.2.i r.2.x =
        rhoSt q s.i (fun e => s.x e + calcDx1 s.x s.dx (offFor idiff f) e) := by
      have hF : (r.2.i f : K) + r.2.x f =
          s.i f + (s.x f + calcDx1 s.x s.dx (offFor idiff f) f) := by
        rw [xf, i_f]; push_cast; ring
      have hO : (r.2.i o : K) + r.2.x o =
          s.i o + (s.x o + calcDx1 s.x s.dx (offFor idiff f) o) := by
        rw [xo, io]; push_cast; ring
      rcases hfo with ⟨rfl, rfl⟩ | ⟨rfl, rfl⟩
      · exact rhoSt_congr hF hO
      · exact rhoSt_congr hO hF
    rw [key]
    rcases hfo with ⟨rfl, rfl⟩ | ⟨rfl, rfl⟩
    · exact hc _ _ _ hxf hxo hf ho'
    · exact hc _ _ _ hxo hxf ho' hf
  · rw [xf, ef, ← heq]; ring
  · rw [xo, eo]; push_cast; ring
  · rw [df, ef]; ring
  · rw [dO, eo]; ring
  · rw [io]; ring

/-- Two successive crossings `f` then `o`, followed by the final piece. -/
theorem two_cross {dx : R3 K} {dt q : K} {cell : I3 → R3 K → R3 K → List (Add K)}
    (hc : CellOk dx dt q cell) {s : St K} {idiff : I3} {f o : Fin 3}
    (hfo : (f = 1 ∧ o = 2) ∨ (f = 2 ∧ o = 1))
    (hf : idiff f = 1 ∨ idiff f = -1) (ho : idiff o = 1 ∨ idiff o = -1)
    (hxf : |s.x f| ≤ 1/2) (hxo : |s.x o| ≤ 1/2)
    (hyf : |s.x f + s.dx f - idiff f| ≤ 1/2) (hyo : |s.x o + s.dx o - idiff o| ≤ 1/2)
    (hdf : s.dx f ≠ 0)
    {t : K} (ht0 : 0 ≤ t) (ht1 : t ≤ 1) (heq : 1/2 * (idiff f : K) - s.x f = t * s.dx f)
    (hmid : |s.x o + t * s.dx o| ≤ 1/2) :
    let r1 := segment cell idiff s (some f)
    let r2 := segment cell idiff r1.2 (some o)
    Continuity yz dx dt (rhoSt q s.i s.x) (rhoSt q s.i (fun e => s.x e + s.dx e))
      (fieldOf (r1.1 ++ r2.1 ++ cell r2.2.i r2.2.x r2.2.dx)) := by
  intro r1 r2
  obtain ⟨c1, x1f, x1o, d1f, d1o, i1f, i1o⟩ :=
    seg_step hc hfo hf hxf hxo heq (fun h => absurd h hdf) hmid
  have hof : (o = 1 ∧ f = 2) ∨ (o = 2 ∧ f = 1) := by tauto
  change Continuity yz dx dt (rhoSt q s.i s.x) (rhoSt q r1.2.i r1.2.x) (fieldOf r1.1) at c1
  change r1.2.x f = _ at x1f
  change r1.2.x o = _ at x1o
  change r1.2.dx f = _ at d1f
  change r1.2.dx o = _ at d1o
  change r1.2.i f = _ at i1f
  change r1.2.i o = _ at i1o
  have hx1f : |r1.2.x f| ≤ 1/2 := by
    rw [x1f]; rcases hf with h | h <;> rw [h] <;> norm_num
  have hx1o : |r1.2.x o| ≤ 1/2 := by rw [x1o]; exact hmid
  have hend_f : |r1.2.x f + r1.2.dx f| ≤ 1/2 := by
    rw [x1f, d1f]
    have : -(1/2) * (idiff f : K) + (1 - t) * s.dx f = s.x f + s.dx f - idiff f := by
      linear_combination heq
    rw [this]; exact hyf
  have hend_o : |r1.2.x o + r1.2.dx o - idiff o| ≤ 1/2 := by
    rw [x1o, d1o]
    have : s.x o + t * s.dx o + (1 - t) * s.dx o - idiff o = s.x o + s.dx o - idiff o := by ring
    rw [this]; exact hyo
  -- second crossing fraction
  obtain ⟨u, hu0, hu1, hueq, huz⟩ : ∃ u : K, 0 ≤ u ∧ u ≤ 1 ∧
      1/2 * (idiff o : K) - r1.2.x o = u * r1.2.dx o ∧ (r1.2.dx o = 0 → u = 0) := by
    rw [abs_le] at hx1o hend_o
    by_cases hz : r1.2.dx o = 0
    · refine ⟨0, le_refl _, zero_le_one, ?_, fun _ => rfl⟩
      rw [hz] at hend_o
      rcases ho with h | h
      · rw [h] at hend_o ⊢; push_cast at *; linarith
      · rw [h] at hend_o ⊢; push_cast at *; linarith
    · refine ⟨(1/2 * (idiff o : K) - r1.2.x o) / r1.2.dx o, ?_, ?_, ?_, fun h => absurd h hz⟩
      · rcases ho with h | h
        · rw [h] at hend_o ⊢; push_cast at *
          exact div_nonneg (by linarith) (by linarith)
        · rw [h] at hend_o ⊢; push_cast at *
          exact div_nonneg_of_nonpos (by linarith) (by linarith)
      · rcases ho with h | h
        · rw [h] at hend_o ⊢; push_cast at *
          rw [div_le_one (lt_of_le_of_ne (by linarith) (Ne.symm hz))]; linarith
        · rw [h] at hend_o ⊢; push_cast at *
          rw [div_le_one_of_neg (lt_of_le_of_ne (by linarith) hz)]; linarith
      · field_simp
  have hmid2 : |r1.2.x f + u * r1.2.dx f| ≤ 1/2 := abs_convex hx1f hend_f hu0 hu1
  obtain ⟨c2, x2o, x2f, d2o, d2f, i2o, i2f⟩ :=
    seg_step hc hof ho hx1o hx1f hueq huz hmid2
  change Continuity yz dx dt (rhoSt q r1.2.i r1.2.x) (rhoSt q r2.2.i r2.2.x) (fieldOf r2.1) at c2
  change r2.2.x o = _ at x2o
  change r2.2.x f = _ at x2f
  change r2.2.dx o = _ at d2o
  change r2.2.dx f = _ at d2f
  change r2.2.i o = _ at i2o
  change r2.2.i f = _ at i2f
  have hx2o : |r2.2.x o| ≤ 1/2 := by
    rw [x2o]; rcases ho with h | h <;> rw [h] <;> norm_num
  have hx2f : |r2.2.x f| ≤ 1/2 := by rw [x2f]; exact hmid2
  have he2f : |r2.2.x f + r2.2.dx f| ≤ 1/2 := by
    rw [x2f, d2f]
    have : r1.2.x f + u * r1.2.dx f + (1 - u) * r1.2.dx f = r1.2.x f + r1.2.dx f := by ring
    rw [this]; exact hend_f
  have he2o : |r2.2.x o + r2.2.dx o| ≤ 1/2 := by
    rw [x2o, d2o]
    have : -(1/2) * (idiff o : K) + (1 - u) * r1.2.dx o = r1.2.x o + r1.2.dx o - idiff o := by
      linear_combination hueq
    rw [this]; exact hend_o
  have hF : (r2.2.i f : K) + (r2.2.x f + r2.2.dx f) = s.i f + (s.x f + s.dx f) := by
    rw [i2f, i1f, x2f, d2f, x1f, d1f]; push_cast
    linear_combination heq
  have hO : (r2.2.i o : K) + (r2.2.x o + r2.2.dx o) = s.i o + (s.x o + s.dx o) := by
    rw [i2o, i1o, x2o, d2o]; push_cast
    linear_combination hueq + x1o + d1o
  have key : rhoSt q s.i (fun e => s.x e + s.dx e) =
      rhoSt q r2.2.i (fun e => r2.2.x e + r2.2.dx e) := by
    rcases hfo with ⟨rfl, rfl⟩ | ⟨rfl, rfl⟩
    · exact rhoSt_congr hF.symm hO.symm
    · exact rhoSt_congr hO.symm hF.symm
  rw [key]
  refine Continuity.append (Continuity.append c1 c2) ?_
  rcases hfo with ⟨rfl, rfl⟩ | ⟨rfl, rfl⟩
  · exact hc _ _ _ hx2f hx2o he2f he2o
  · exact hc _ _ _ hx2o hx2f he2o he2f

/-- One crossing in direction `f`, followed by the final piece. -/
theorem one_cross {dx : R3 K} {dt q : K} {cell : I3 → R3 K → R3 K → List (Add K)}
    (hc : CellOk dx dt q cell) {s : St K} {idiff : I3} {f o : Fin 3}
    (hfo : (f = 1 ∧ o = 2) ∨ (f = 2 ∧ o = 1))
    (hf : idiff f = 1 ∨ idiff f = -1)
    (hxf : |s.x f| ≤ 1/2) (hxo : |s.x o| ≤ 1/2)
    (hyf : |s.x f + s.dx f - idiff f| ≤ 1/2) (hyo : |s.x o + s.dx o| ≤ 1/2)
    (hdf : s.dx f ≠ 0)
    {t : K} (ht0 : 0 ≤ t) (ht1 : t ≤ 1) (heq : 1/2 * (idiff f : K) - s.x f = t * s.dx f) :
    let r1 := segment cell idiff s (some f)
    Continuity yz dx dt (rhoSt q s.i s.x) (rhoSt q s.i (fun e => s.x e + s.dx e))
      (fieldOf (r1.1 ++ cell r1.2.i r1.2.x r1.2.dx)) := by
  intro r1
  have hmid : |s.x o + t * s.dx o| ≤ 1/2 := abs_convex hxo hyo ht0 ht1
  obtain ⟨c1, x1f, x1o, d1f, d1o, i1f, i1o⟩ :=
    seg_step hc hfo hf hxf hxo heq (fun h => absurd h hdf) hmid
  change Continuity yz dx dt (rhoSt q s.i s.x) (rhoSt q r1.2.i r1.2.x) (fieldOf r1.1) at c1
  change r1.2.x f = _ at x1f
  change r1.2.x o = _ at x1o
  change r1.2.dx f = _ at d1f
  change r1.2.dx o = _ at d1o
  change r1.2.i f = _ at i1f
  change r1.2.i o = _ at i1o
  have hx1f : |r1.2.x f| ≤ 1/2 := by
    rw [x1f]; rcases hf with h | h <;> rw [h] <;> norm_num
  have hx1o : |r1.2.x o| ≤ 1/2 := by rw [x1o]; exact hmid
  have hend_f : |r1.2.x f + r1.2.dx f| ≤ 1/2 := by
    rw [x1f, d1f]
    have : -(1/2) * (idiff f : K) + (1 - t) * s.dx f = s.x f + s.dx f - idiff f := by
      linear_combination heq
    rw [this]; exact hyf
  have hend_o : |r1.2.x o + r1.2.dx o| ≤ 1/2 := by
    rw [x1o, d1o]
    have : s.x o + t * s.dx o + (1 - t) * s.dx o = s.x o + s.dx o := by ring
    rw [this]; exact hyo
  have hF : (r1.2.i f : K) + (r1.2.x f + r1.2.dx f) = s.i f + (s.x f + s.dx f) := by
    rw [i1f, x1f, d1f]; push_cast
    linear_combination heq
  have hO : (r1.2.i o : K) + (r1.2.x o + r1.2.dx o) = s.i o + (s.x o + s.dx o) := by
    rw [i1o, x1o, d1o]; ring
  have key : rhoSt q s.i (fun e => s.x e + s.dx e) =
      rhoSt q r1.2.i (fun e => r1.2.x e + r1.2.dx e) := by
    rcases hfo with ⟨rfl, rfl⟩ | ⟨rfl, rfl⟩
    · exact rhoSt_congr hF.symm hO.symm
    · exact rhoSt_congr hO.symm hF.symm
  rw [key]
  refine Continuity.append c1 ?_
  rcases hfo with ⟨rfl, rfl⟩ | ⟨rfl, rfl⟩
  · exact hc _ _ _ hx1f hx1o hend_f hend_o
  · exact hc _ _ _ hx1o hx1f hend_o hend_f

/-- fraction at which the boundary in direction `f` is reached -/
theorem cross_frac {x d : K} {n : ℤ} (hn : n = 1 ∨ n = -1) (hx0 : -(1/2) ≤ x) (hx1 : x < 1/2)
    (hy0 : -(1/2) ≤ x + d - n) (hy1 : x + d - n < 1/2) :
    d ≠ 0 ∧ 0 ≤ (1/2 * (n : K) - x) / d ∧ (1/2 * (n : K) - x) / d ≤ 1 ∧
      1/2 * (n : K) - x = (1/2 * (n : K) - x) / d * d ∧ (n = 1 → 0 < d) ∧ (n = -1 → d < 0) := by
  rcases hn with rfl | rfl
  · push_cast at *
    have hd : 0 < d := by linarith
    refine ⟨hd.ne', div_nonneg (by linarith) hd.le, ?_, ?_, fun _ => hd, fun h => absurd h (by decide)⟩
    · rw [div_le_one hd]; linarith
    · field_simp
  · push_cast at *
    have hd : d < 0 := by linarith
    refine ⟨hd.ne, div_nonneg_of_nonpos (by linarith) hd.le, ?_, ?_, fun h => absurd h (by decide), fun _ => hd⟩
    · rw [div_le_one_of_neg hd]; linarith
    · rw [div_mul_cancel₀]; exact hd.ne

theorem run_continuity {dx : R3 K} {dt q : K} {cell : I3 → R3 K → R3 K → List (Add K)}
    (hc : CellOk dx dt q cell) {s : St K} {idiff : I3}
    (hid : ∀ d, d = 1 ∨ d = 2 → |idiff d| ≤ 1)
    (hx : ∀ d, d = 1 ∨ d = 2 → -(1/2) ≤ s.x d ∧ s.x d < 1/2)
    (hy : ∀ d, d = 1 ∨ d = 2 → -(1/2) ≤ s.x d + s.dx d - idiff d ∧ s.x d + s.dx d - idiff d < 1/2) :
    Continuity yz dx dt (rhoSt q s.i s.x) (rhoSt q s.i (fun e => s.x e + s.dx e))
      (fieldOf (run cell idiff s)) := by
  have id1 := hid 1 (Or.inl rfl)
  have id2 := hid 2 (Or.inr rfl)
  have hx1 := hx 1 (Or.inl rfl)
  have hx2 := hx 2 (Or.inr rfl)
  have hy1 := hy 1 (Or.inl rfl)
  have hy2 := hy 2 (Or.inr rfl)
  have ax1 : |s.x 1| ≤ 1/2 := abs_le.mpr ⟨hx1.1, hx1.2.le⟩
  have ax2 : |s.x 2| ≤ 1/2 := abs_le.mpr ⟨hx2.1, hx2.2.le⟩
  have ay1 : |s.x 1 + s.dx 1 - idiff 1| ≤ 1/2 := abs_le.mpr ⟨hy1.1, hy1.2.le⟩
  have ay2 : |s.x 2 + s.dx 2 - idiff 2| ≤ 1/2 := abs_le.mpr ⟨hy2.1, hy2.2.le⟩
  rw [abs_le] at id1 id2
  unfold run dirs
  by_cases h1 : idiff 1 = 0
  · by_cases h2 : idiff 2 = 0
    · rw [if_pos ⟨h1, h2⟩]
      simp only [segment, List.nil_append]
      rw [h1] at ay1; rw [h2] at ay2
      push_cast at ay1 ay2
      rw [sub_zero] at ay1 ay2
      exact hc _ _ _ ax1 ax2 ay1 ay2
    · rw [if_neg (by tauto), if_pos h1]
      have hf : idiff 2 = 1 ∨ idiff 2 = -1 := by omega
      obtain ⟨d0, t0, t1, te, -, -⟩ := cross_frac hf hx2.1 hx2.2 hy2.1 hy2.2
      rw [h1] at ay1; push_cast at ay1; rw [sub_zero] at ay1
      have := one_cross hc (Or.inr ⟨rfl, rfl⟩) hf ax2 ax1 ay2 ay1 d0 t0 t1 te
      simpa [segment] using this
  · have hf1 : idiff 1 = 1 ∨ idiff 1 = -1 := by omega
    obtain ⟨d0, t0, t1, te, dp, dn⟩ := cross_frac hf1 hx1.1 hx1.2 hy1.1 hy1.2
    by_cases h2 : idiff 2 = 0
    · rw [if_neg (by tauto), if_neg h1, if_pos h2]
      rw [h2] at ay2; push_cast at ay2; rw [sub_zero] at ay2
      have := one_cross hc (Or.inl ⟨rfl, rfl⟩) hf1 ax1 ax2 ay1 ay2 d0 t0 t1 te
      simpa [segment] using this
    · rw [if_neg (by tauto), if_neg h1, if_neg h2]
      have hf2 : idiff 2 = 1 ∨ idiff 2 = -1 := by omega
      obtain ⟨d0', t0', t1', te', dp', dn'⟩ := cross_frac hf2 hx2.1 hx2.2 hy2.1 hy2.2
      simp only [if_neg d0]
      generalize ht : (1/2 * (idiff 1 : K) - s.x 1) / s.dx 1 = t at *
      generalize hu : (1/2 * (idiff 2 : K) - s.x 2) / s.dx 2 = u at *
      have e2 : s.dx 2 / s.dx 1 * (1/2 * (idiff 1 : K) - s.x 1) = t * s.dx 2 := by
        rw [te]; field_simp
      rw [e2]
      by_cases hsel : |s.x 2 + t * s.dx 2| > 1/2
      · rw [if_pos hsel]
        have hmid : |s.x 1 + u * s.dx 1| ≤ 1/2 := by
          have hut : u ≤ t := by
            rcases hf2 with h | h
            · have hd := dp' h
              rw [h] at te'; push_cast at te'
              rcases lt_abs.mp hsel with hs | hs
              · by_contra hlt; push Not at hlt; nlinarith
              · exfalso; nlinarith
            · have hd := dn' h
              rw [h] at te'; push_cast at te'
              rcases lt_abs.mp hsel with hs | hs
              · exfalso; nlinarith
              · by_contra hlt; push Not at hlt; nlinarith
          have hb : |s.x 1 + t * s.dx 1| ≤ 1/2 := by
            rw [← te]
            rcases hf1 with h | h <;> rw [h] <;> push_cast <;> rw [abs_le] <;>
              constructor <;> linarith
          rcases eq_or_lt_of_le t0 with hz | hpos
          · have : u = 0 := le_antisymm (hz ▸ hut) t0'
            rw [this]; simpa using ax1
          · have := abs_convex (x := s.x 1) (d := t * s.dx 1) (t := u / t) ax1 hb
              (div_nonneg t0' t0) ((div_le_one hpos).mpr hut)
            have e : u / t * (t * s.dx 1) = u * s.dx 1 := by field_simp
            rwa [e] at this
        exact two_cross hc (Or.inr ⟨rfl, rfl⟩) hf2 hf1 ax2 ax1 ay2 ay1 d0' t0' t1' te' hmid
      · rw [if_neg hsel]
        push Not at hsel
        exact two_cross hc (Or.inl ⟨rfl, rfl⟩) hf1 hf2 ax1 ax2 ay1 ay2 d0 t0 t1 te hsel

theorem init_continuity [FloorRing K] {dx : R3 K} {dt q : K}
    {cell : I3 → R3 K → R3 K → List (Add K)} (hc : CellOk dx dt q cell)
    (dxi v xm xp : R3 K) (hadj : ∀ d, yz d = true → Adj (xm d) (xp d)) :
    Continuity yz dx dt (rho_yz q xm) (rho_yz q xp)
      (fieldOf (run cell (fun d => if d = 0 then 0 else ⌊xp d⌋ - ⌊xm d⌋)
        (init dt dxi v xm xp))) := by
  have hm : rho_yz q xm = rhoSt q (init dt dxi v xm xp).i (init dt dxi v xm xp).x := by
    funext a b c
    simp only [rhoSt, rho_yz, init, Matrix.cons_val]
    congr 4 <;> ring
  have hp : rho_yz q xp = rhoSt q (init dt dxi v xm xp).i
      (fun e => (init dt dxi v xm xp).x e + (init dt dxi v xm xp).dx e) := by
    funext a b c
    simp only [rhoSt, rho_yz, init, Matrix.cons_val]
    congr 4 <;> ring
  rw [hm, hp]
  apply run_continuity hc
  · intro d hd
    have hne : d ≠ 0 := by rcases hd with rfl | rfl <;> decide
    have := hadj d (by rcases hd with rfl | rfl <;> rfl)
    unfold Adj at this
    rw [if_neg hne, abs_sub_comm]
    exact this
  · intro d hd
    have l := Int.floor_le (xm d)
    have u := Int.lt_floor_add_one (xm d)
    rcases hd with rfl | rfl <;> simp only [init, Matrix.cons_val] <;> constructor <;> linarith
  · intro d hd
    have l := Int.floor_le (xp d)
    have u := Int.lt_floor_add_one (xp d)
    rcases hd with rfl | rfl <;> simp only [init, Matrix.cons_val] <;>
      simp only [Fin.isValue, one_ne_zero, Fin.reduceEq, if_false, Int.cast_sub] <;>
      constructor <;> linarith

end Psc
