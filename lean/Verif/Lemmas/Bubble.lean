import Verif.Spec.Bubble
import Mathlib.Analysis.SpecialFunctions.Trigonometric.Deriv
import Mathlib.Tactic.LinearCombination
import Mathlib.Tactic.FieldSimp
import Mathlib.Tactic.Positivity

namespace Psc.Bubble

open Real

theorem dist1_eq (g : Params) (y z : ℝ) : dist1 g y z = radius (y + 1 / 2 * g.LLy) z := by
  unfold dist1 radius
  congr 1
  ring

theorem dist2_eq (g : Params) (y z : ℝ) : dist2 g y z = radius (y - 1 / 2 * g.LLy) z := by
  unfold dist2 radius
  congr 1
  ring

theorem radius_sq (a z : ℝ) : radius a z ^ 2 = z ^ 2 + a ^ 2 := Real.sq_sqrt (by positivity)

theorem radius_nonneg (a z : ℝ) : 0 ≤ radius a z := Real.sqrt_nonneg _

theorem abs_le_radius (a z : ℝ) : |a| ≤ radius a z := Real.abs_le_sqrt (by nlinarith [sq_nonneg z])

theorem abs_le_radius' (a z : ℝ) : |z| ≤ radius a z := Real.abs_le_sqrt (by nlinarith [sq_nonneg a])

/-- the distances to the two centres -/
theorem apart (g : Params) (y z : ℝ) : g.LLy ≤ radius (y + 1 / 2 * g.LLy) z + radius (y - 1 / 2 * g.LLy) z := by
  have h1 := le_trans (le_abs_self _) (abs_le_radius (y + 1 / 2 * g.LLy) z)
  have h2 := le_trans (neg_abs_le _) (le_refl (y - 1 / 2 * g.LLy))
  have h3 := abs_le_radius (y - 1 / 2 * g.LLy) z
  linarith

theorem LLn_pos {g : Params} (h : g.Ok) : 0 < g.LLn := by have := h.LLB; have := h.shell; linarith

/-- the shell of a bubble that is not there -/
theorem shell_out (g : Params) (m : Comp) (a z : ℝ) (h : ¬InShell g (radius a z)) : shell g m a z = 0 := by
  unfold shell
  exact if_neg fun hh => h ⟨hh.2, hh.1⟩

theorem bubble_out (g : Params) (a z : ℝ) (x : Npt) (h : g.LLn ≤ radius a z) : bubble g a z x = x := by
  unfold bubble
  exact if_neg (not_lt.2 h)

theorem drift_out (g : Params) (a z : ℝ) (x : Npt) (h : g.LLn < radius a z) : drift g a z x = x := by
  unfold drift
  exact if_neg fun hh => absurd hh.1 (not_le.2 h)

theorem bubble_in (g : Params) (a z : ℝ) (x : Npt) (h : radius a z < g.LLn) (h0 : 0 < radius a z) : bubble g a z x =
    ⟨x.n + (g.nn0 - g.nnb) * cos (π / 2 * radius a z / g.LLn) ^ 2,
      ![x.p 0, x.p 1 + V0 g * sin (π * radius a z / g.LLn) * a / radius a z, x.p 2 + V0 g * sin (π * radius a z / g.LLn) * z / radius a z],
      x.T⟩ := by
  unfold bubble
  simp only []
  rw [if_pos h, if_pos h0]

/-- density and momentum in x after a bubble -/
theorem bubble_n (g : Params) (a z : ℝ) (x : Npt) : (bubble g a z x).n =
    x.n + (if radius a z < g.LLn then (g.nn0 - g.nnb) * cos (π / 2 * radius a z / g.LLn) ^ 2 else 0) ∧ (bubble g a z x).p 0 = x.p 0 := by
  unfold bubble
  simp only []
  split
  · split
    · exact ⟨rfl, rfl⟩
    · exact ⟨rfl, rfl⟩
  · exact ⟨(add_zero _).symm, rfl⟩

theorem drift_n (g : Params) (a z : ℝ) (x : Npt) : (drift g a z x).n = x.n ∧ (drift g a z x).p 1 = x.p 1 ∧ (drift g a z x).p 2 = x.p 2 := by
  unfold drift
  simp only []
  split
  · exact ⟨rfl, rfl, rfl⟩
  · exact ⟨rfl, rfl, rfl⟩

/-- one bubble: the field is frozen in -/
theorem frozen_one (g : Params) (hg : g.Ok) (a z : ℝ) (x : Npt) (h1 : x.p 1 = 0) (h2 : x.p 2 = 0) (hr : radius a z < g.LLn) :
    shell g .EX a z + ((bubble g a z x).p 1 * shell g .HZ a z - (bubble g a z x).p 2 * shell g .HY a z) = 0 := by
  by_cases hs : InShell g (radius a z)
  · have hpos : 0 < radius a z := by have := hg.shell; have := hs.1; linarith
    have hne := hpos.ne'
    have hsq := radius_sq a z
    have hif : radius a z < g.LLn ∧ radius a z > g.LLn - 2 * g.LLB := ⟨hs.2, hs.1⟩
    rw [bubble_in g a z x hr hpos]
    unfold shell V0
    simp only [if_pos hif]
    simp only [Matrix.cons_val_one, Matrix.cons_val_zero, Matrix.cons_val]
    rw [h1, h2]
    generalize radius a z = r at hne hsq ⊢
    field_simp
    linear_combination (g.MMach * √(g.TTe / g.MMi) * g.BB * sin (π * (g.LLn - r) / (2 * g.LLB)) * sin (π * r / g.LLn)) * hsq
  · rw [shell_out g .EX a z hs, shell_out g .HZ a z hs, shell_out g .HY a z hs]
    ring

/-! ## derivatives -/

/-- `f(r)/r` for the profile of the shell -/
noncomputable def prof (g : Params) (r : ℝ) : ℝ := sin (π * (g.LLn - r) / (2 * g.LLB)) / r

/-- its derivative -/
noncomputable def prof' (g : Params) (r : ℝ) : ℝ :=
  (cos (π * (g.LLn - r) / (2 * g.LLB)) * (-π / (2 * g.LLB)) * r - sin (π * (g.LLn - r) / (2 * g.LLB))) / r ^ 2

theorem prof_deriv (g : Params) (r : ℝ) (hr : r ≠ 0) : HasDerivAt (prof g) (prof' g r) r := by
  have h1 : HasDerivAt (fun r => π * (g.LLn - r) / (2 * g.LLB)) (-π / (2 * g.LLB)) r := by
    have := (((hasDerivAt_id r).const_sub g.LLn).const_mul π).div_const (2 * g.LLB)
    simpa using this
  have := (h1.sin).div (hasDerivAt_id r) hr
  refine HasDerivAt.congr_deriv (f' := _) (this : HasDerivAt (prof g) _ r) ?_
  unfold prof'
  simp

theorem radius_deriv_y (c y z : ℝ) (h : radius (y + c) z ≠ 0) :
    HasDerivAt (fun y => radius (y + c) z) ((y + c) / radius (y + c) z) y := by
  have h0 : z ^ 2 + (y + c) ^ 2 ≠ 0 := by rw [← radius_sq]; exact pow_ne_zero 2 h
  have h1 : HasDerivAt (fun y => z ^ 2 + (y + c) ^ 2) (2 * (y + c)) y := by
    have := (((hasDerivAt_id y).add_const c).pow 2).const_add (z ^ 2)
    simpa using this
  have := h1.sqrt h0
  unfold radius
  convert this using 1
  field_simp

theorem radius_deriv_z (a z : ℝ) (h : radius a z ≠ 0) : HasDerivAt (fun z => radius a z) (z / radius a z) z := by
  have h0 : z ^ 2 + a ^ 2 ≠ 0 := by rw [← radius_sq]; exact pow_ne_zero 2 h
  have h1 : HasDerivAt (fun z => z ^ 2 + a ^ 2) (2 * z) z := by
    have := ((hasDerivAt_id z).pow 2).add_const (a ^ 2)
    simpa using this
  have := h1.sqrt h0
  unfold radius
  convert this using 1
  field_simp

theorem radius_cont_y (c z : ℝ) : Continuous fun y => radius (y + c) z := by unfold radius; fun_prop

theorem radius_cont_z (a : ℝ) : Continuous fun z => radius a z := by unfold radius; fun_prop

theorem shell_in (g : Params) (a z : ℝ) (h : InShell g (radius a z)) :
    shell g .HZ a z = -g.BB * (prof g (radius a z) * a) ∧ shell g .HY a z = g.BB * (prof g (radius a z) * z) := by
  have hif : radius a z < g.LLn ∧ radius a z > g.LLn - 2 * g.LLB := ⟨h.2, h.1⟩
  unfold shell prof
  simp only [if_pos hif]
  constructor <;> ring

/-- inside a shell the fields have these derivatives -/
theorem shell_deriv (g : Params) (hg : g.Ok) (c y z : ℝ) (h : InShell g (radius (y + c) z)) :
    HasDerivAt (fun y => shell g .HZ (y + c) z)
      (-g.BB * (prof' g (radius (y + c) z) * ((y + c) / radius (y + c) z) * (y + c) + prof g (radius (y + c) z))) y ∧
    HasDerivAt (fun y => shell g .HY (y + c) z) (g.BB * (prof' g (radius (y + c) z) * ((y + c) / radius (y + c) z) * z)) y ∧
    HasDerivAt (fun z => shell g .HZ (y + c) z) (-g.BB * (prof' g (radius (y + c) z) * (z / radius (y + c) z) * (y + c))) z ∧
    HasDerivAt (fun z => shell g .HY (y + c) z)
      (g.BB * (prof' g (radius (y + c) z) * (z / radius (y + c) z) * z + prof g (radius (y + c) z))) z := by
  have hne : radius (y + c) z ≠ 0 := by have := hg.shell; have := h.1; intro e; rw [e] at this; linarith
  have evy : ∀ᶠ y' in nhds y, InShell g (radius (y' + c) z) :=
    ((radius_cont_y c z).continuousAt.eventually (Ioo_mem_nhds h.1 h.2))
  have evz : ∀ᶠ z' in nhds z, InShell g (radius (y + c) z') :=
    ((radius_cont_z (y + c)).continuousAt.eventually (Ioo_mem_nhds h.1 h.2))
  have py := (prof_deriv g _ hne).comp y (radius_deriv_y c y z hne)
  have pz := (prof_deriv g _ hne).comp z (radius_deriv_z (y + c) z hne)
  refine ⟨?_, ?_, ?_, ?_⟩
  · refine HasDerivAt.congr_of_eventuallyEq ?_ (evy.mono fun y' h' => (shell_in g _ _ h').1)
    have := (py.mul ((hasDerivAt_id y).add_const c)).const_mul (-g.BB)
    simpa using this
  · refine HasDerivAt.congr_of_eventuallyEq ?_ (evy.mono fun y' h' => (shell_in g _ _ h').2)
    have := (py.mul_const z).const_mul g.BB
    simpa using this
  · refine HasDerivAt.congr_of_eventuallyEq ?_ (evz.mono fun z' h' => (shell_in g _ _ h').1)
    have := (pz.mul_const (y + c)).const_mul (-g.BB)
    simpa using this
  · refine HasDerivAt.congr_of_eventuallyEq ?_ (evz.mono fun z' h' => (shell_in g _ _ h').2)
    have := (pz.mul (hasDerivAt_id z)).const_mul g.BB
    simpa using this

/-- away from a shell the fields are constant -/
theorem shell_deriv_out (g : Params) (m : Comp) (c y z : ℝ) (ho : OffEdge g (radius (y + c) z)) (h : ¬InShell g (radius (y + c) z)) :
    HasDerivAt (fun y => shell g m (y + c) z) 0 y ∧ HasDerivAt (fun z => shell g m (y + c) z) 0 z := by
  have hor : radius (y + c) z < g.LLn - 2 * g.LLB ∨ g.LLn < radius (y + c) z := by
    rcases lt_trichotomy (radius (y + c) z) (g.LLn - 2 * g.LLB) with h1 | h1 | h1
    · exact Or.inl h1
    · exact absurd h1 ho.2
    · rcases lt_trichotomy (radius (y + c) z) g.LLn with h2 | h2 | h2
      · exact absurd ⟨h1, h2⟩ h
      · exact absurd h2 ho.1
      · exact Or.inr h2
  have evy : ∀ᶠ y' in nhds y, ¬InShell g (radius (y' + c) z) := by
    rcases hor with h1 | h1
    · exact ((radius_cont_y c z).continuousAt.eventually (Iio_mem_nhds h1)).mono fun y' h' hs => lt_asymm h' hs.1
    · exact ((radius_cont_y c z).continuousAt.eventually (Ioi_mem_nhds h1)).mono fun y' h' hs => lt_asymm h' hs.2
  have evz : ∀ᶠ z' in nhds z, ¬InShell g (radius (y + c) z') := by
    rcases hor with h1 | h1
    · exact ((radius_cont_z (y + c)).continuousAt.eventually (Iio_mem_nhds h1)).mono fun y' h' hs => lt_asymm h' hs.1
    · exact ((radius_cont_z (y + c)).continuousAt.eventually (Ioi_mem_nhds h1)).mono fun y' h' hs => lt_asymm h' hs.2
  exact ⟨(hasDerivAt_const y (0 : ℝ)).congr_of_eventuallyEq (evy.mono fun y' h' => shell_out g m _ _ h'),
    (hasDerivAt_const z (0 : ℝ)).congr_of_eventuallyEq (evz.mono fun z' h' => shell_out g m _ _ h')⟩

/-- a bubble at `-c` has a magnetic field without divergence -/
theorem shell_div (g : Params) (hg : g.Ok) (c y z : ℝ) (ho : OffEdge g (radius (y + c) z)) :
    ∃ dy dz, HasDerivAt (fun y => shell g .HY (y + c) z) dy y ∧ HasDerivAt (fun z => shell g .HZ (y + c) z) dz z ∧ dy + dz = 0 := by
  by_cases h : InShell g (radius (y + c) z)
  · obtain ⟨-, h2, h3, -⟩ := shell_deriv g hg c y z h
    exact ⟨_, _, h2, h3, by ring⟩
  · exact ⟨0, 0, (shell_deriv_out g .HY c y z ho h).1, (shell_deriv_out g .HZ c y z ho h).2, by ring⟩

/-- the curl of a shell -/
theorem shell_curl (g : Params) (hg : g.Ok) (c y z : ℝ) (h : InShell g (radius (y + c) z)) :
    ∃ dy dz, HasDerivAt (fun y => shell g .HZ (y + c) z) dy y ∧ HasDerivAt (fun z => shell g .HY (y + c) z) dz z ∧
      dy - dz = g.BB * π / (2 * g.LLB) * cos (π * (g.LLn - radius (y + c) z) / (2 * g.LLB)) -
        g.BB * sin (π * (g.LLn - radius (y + c) z) / (2 * g.LLB)) / radius (y + c) z := by
  obtain ⟨h1, -, -, h4⟩ := shell_deriv g hg c y z h
  refine ⟨_, _, h1, h4, ?_⟩
  have hne : radius (y + c) z ≠ 0 := by have := hg.shell; have := h.1; intro e; rw [e] at this; linarith
  have hB := hg.LLB.ne'
  have hsq := radius_sq (y + c) z
  unfold prof prof'
  generalize radius (y + c) z = r at hne hsq ⊢
  generalize sin (π * (g.LLn - r) / (2 * g.LLB)) = s
  generalize cos (π * (g.LLn - r) / (2 * g.LLB)) = co
  generalize y + c = a at hsq ⊢
  have e : ∀ q : ℝ, -g.BB * (q * (a / r) * a + s / r) - g.BB * (q * (z / r) * z + s / r) = -g.BB * (q * ((z ^ 2 + a ^ 2) / r) + 2 * (s / r)) := by
    intro q; ring
  rw [e, ← hsq]
  field_simp
  ring

end Psc.Bubble

namespace Psc.Bubble

open Real

/-- only one bubble is near: the other one is outside -/
theorem other_far (g : Params) (hg : g.Ok) (y z : ℝ) : g.LLn ≤ radius (y + 1 / 2 * g.LLy) z ∨ g.LLn < radius (y - 1 / 2 * g.LLy) z := by
  have h1 := apart g y z
  have h2 := hg.apart
  by_cases h : g.LLn ≤ radius (y + 1 / 2 * g.LLy) z
  · exact Or.inl h
  · exact Or.inr (by have := not_le.1 h; linarith)

theorem not_in_of_ge (g : Params) (r : ℝ) (h : g.LLn ≤ r) : ¬InShell g r := fun hs => absurd hs.2 (not_lt.2 h)

theorem npt_ion (g : Params) (y z : ℝ) : init_npt g .ion y z =
    { bubble g (y - 1 / 2 * g.LLy) z (bubble g (y + 1 / 2 * g.LLy) z ⟨g.nnb, fun _ => 0, 0⟩) with T := g.TTi } := rfl

theorem npt_el (g : Params) (y z : ℝ) : init_npt g .electron y z =
    { drift g (y - 1 / 2 * g.LLy) z (drift g (y + 1 / 2 * g.LLy) z (bubble g (y - 1 / 2 * g.LLy) z
      (bubble g (y + 1 / 2 * g.LLy) z ⟨g.nnb, fun _ => 0, 0⟩))) with T := g.TTe } := rfl

/-- the factor of the density is between 0 and 1 -/
theorem cos_sq_mem (x : ℝ) : 0 ≤ cos x ^ 2 ∧ cos x ^ 2 ≤ 1 := ⟨sq_nonneg _, cos_sq_le_one x⟩

theorem ion_p0 (g : Params) (y z : ℝ) : (init_npt g .ion y z).p 0 = 0 := by
  rw [npt_ion]
  show (bubble g _ z (bubble g _ z _)).p 0 = 0
  rw [(bubble_n g _ z _).2, (bubble_n g _ z _).2]

theorem el_n (g : Params) (y z : ℝ) : (init_npt g .electron y z).n = (init_npt g .ion y z).n := by
  rw [npt_ion, npt_el]
  show (drift g _ z (drift g _ z _)).n = _
  rw [(drift_n g _ z _).1, (drift_n g _ z _).1]

theorem el_p (g : Params) (y z : ℝ) : (init_npt g .electron y z).p 1 = (init_npt g .ion y z).p 1 ∧
    (init_npt g .electron y z).p 2 = (init_npt g .ion y z).p 2 := by
  rw [npt_ion, npt_el]
  constructor
  · show (drift g _ z (drift g _ z _)).p 1 = _
    rw [(drift_n g _ z _).2.1, (drift_n g _ z _).2.1]
  · show (drift g _ z (drift g _ z _)).p 2 = _
    rw [(drift_n g _ z _).2.2, (drift_n g _ z _).2.2]

theorem ion_n (g : Params) (y z : ℝ) : (init_npt g .ion y z).n = g.nnb +
    (if radius (y + 1 / 2 * g.LLy) z < g.LLn then (g.nn0 - g.nnb) * cos (π / 2 * radius (y + 1 / 2 * g.LLy) z / g.LLn) ^ 2 else 0) +
    (if radius (y - 1 / 2 * g.LLy) z < g.LLn then (g.nn0 - g.nnb) * cos (π / 2 * radius (y - 1 / 2 * g.LLy) z / g.LLn) ^ 2 else 0) := by
  rw [npt_ion]
  show (bubble g _ z (bubble g _ z _)).n = _
  rw [(bubble_n g _ z _).1, (bubble_n g _ z _).1]

theorem ion_n_bounds (g : Params) (hg : g.Ok) (y z : ℝ) : g.nnb ≤ (init_npt g .ion y z).n ∧ (init_npt g .ion y z).n ≤ g.nn0 := by
  have hn := hg.nn0
  rw [ion_n]
  have key : ∀ r : ℝ, 0 ≤ (if r < g.LLn then (g.nn0 - g.nnb) * cos (π / 2 * r / g.LLn) ^ 2 else 0) ∧
      (if r < g.LLn then (g.nn0 - g.nnb) * cos (π / 2 * r / g.LLn) ^ 2 else 0) ≤ g.nn0 - g.nnb := by
    intro r
    obtain ⟨h0, h1⟩ := cos_sq_mem (π / 2 * r / g.LLn)
    split
    · exact ⟨mul_nonneg (by linarith) h0, by nlinarith⟩
    · exact ⟨le_refl _, by linarith⟩
  have k1 := key (radius (y + 1 / 2 * g.LLy) z)
  have k2 := key (radius (y - 1 / 2 * g.LLy) z)
  refine ⟨by linarith [k1.1, k2.1], ?_⟩
  rcases other_far g hg y z with h | h
  · rw [if_neg (not_lt.2 h)]; linarith [k2.2]
  · rw [if_neg (not_lt.2 h.le) (α := ℝ) (c := radius (y - 1 / 2 * g.LLy) z < g.LLn)]; linarith [k1.2]

/-- the field and the ions, with only one bubble near -/
theorem frozen (g : Params) (hg : g.Ok) (y z : ℝ) : init_field g .EX y z +
    ((init_npt g .ion y z).p 1 * init_field g .HZ y z - (init_npt g .ion y z).p 2 * init_field g .HY y z) = 0 := by
  rw [npt_ion]
  unfold init_field
  simp only []
  rcases other_far g hg y z with h | h
  · have hn := not_in_of_ge g _ h
    rw [shell_out g .EX _ z hn, shell_out g .HZ _ z hn, shell_out g .HY _ z hn, bubble_out g _ z _ h]
    by_cases h2 : radius (y - 1 / 2 * g.LLy) z < g.LLn
    · have := frozen_one g hg (y - 1 / 2 * g.LLy) z ⟨g.nnb, fun _ => 0, 0⟩ rfl rfl h2
      linear_combination this
    · have hn2 := not_in_of_ge g _ (not_lt.1 h2)
      rw [shell_out g .EX _ z hn2, shell_out g .HZ _ z hn2, shell_out g .HY _ z hn2]
      ring
  · have hn2 := not_in_of_ge g _ h.le
    rw [shell_out g .EX _ z hn2, shell_out g .HZ _ z hn2, shell_out g .HY _ z hn2, bubble_out g (y - 1 / 2 * g.LLy) z _ h.le]
    by_cases h1 : radius (y + 1 / 2 * g.LLy) z < g.LLn
    · have := frozen_one g hg (y + 1 / 2 * g.LLy) z ⟨g.nnb, fun _ => 0, 0⟩ rfl rfl h1
      linear_combination this
    · have hn := not_in_of_ge g _ (not_lt.1 h1)
      rw [shell_out g .EX _ z hn, shell_out g .HZ _ z hn, shell_out g .HY _ z hn]
      ring

/-- speed of a bubble -/
theorem bubble_speed (g : Params) (a z : ℝ) : (bubble g a z ⟨g.nnb, fun _ => 0, 0⟩).p 1 ^ 2 + (bubble g a z ⟨g.nnb, fun _ => 0, 0⟩).p 2 ^ 2 ≤ V0 g ^ 2 := by
  by_cases h : radius a z < g.LLn
  · by_cases h0 : 0 < radius a z
    · rw [bubble_in g a z _ h h0]
      simp only [Matrix.cons_val_one, Matrix.cons_val_zero, Matrix.cons_val]
      have hsq := radius_sq a z
      have hne := h0.ne'
      generalize radius a z = r at hne hsq ⊢
      have hs : sin (π * r / g.LLn) ^ 2 ≤ 1 := sin_sq_le_one _
      generalize sin (π * r / g.LLn) = s at hs ⊢
      have e : (0 + V0 g * s * a / r) ^ 2 + (0 + V0 g * s * z / r) ^ 2 = V0 g ^ 2 * s ^ 2 := by
        field_simp
        linear_combination (- V0 g ^ 2 * s ^ 2) * hsq
      rw [e]
      nlinarith [sq_nonneg (V0 g)]
    · unfold bubble
      simp only []
      rw [if_pos h, if_neg h0]
      simp only []
      nlinarith [sq_nonneg (V0 g)]
  · rw [bubble_out g a z _ (not_lt.1 h)]
    simp only []
    nlinarith [sq_nonneg (V0 g)]

theorem ion_speed (g : Params) (hg : g.Ok) (y z : ℝ) : (init_npt g .ion y z).p 1 ^ 2 + (init_npt g .ion y z).p 2 ^ 2 ≤ V0 g ^ 2 := by
  rw [npt_ion]
  simp only []
  rcases other_far g hg y z with h | h
  · rw [bubble_out g (y + 1 / 2 * g.LLy) z _ h]
    exact bubble_speed g _ z
  · rw [bubble_out g (y - 1 / 2 * g.LLy) z _ h.le]
    exact bubble_speed g _ z

/-- the current where the shell of one bubble is -/
theorem drift_in (g : Params) (a z : ℝ) (x : Npt) (h : InShell g (radius a z)) :
    (drift g a z x).p 0 = -g.BB * π / (2 * g.LLB) * cos (π * (g.LLn - radius a z) / (2 * g.LLB)) / x.n := by
  unfold drift
  simp only []
  rw [if_pos ⟨h.2.le, h.1.le⟩]
  rfl

theorem current1 (g : Params) (hg : g.Ok) (y z : ℝ) (h : InShell g (radius (y + 1 / 2 * g.LLy) z)) :
    current g y z = g.BB * π / (2 * g.LLB) * cos (π * (g.LLn - radius (y + 1 / 2 * g.LLy) z) / (2 * g.LLB)) := by
  have hfar : g.LLn < radius (y - 1 / 2 * g.LLy) z := by
    rcases other_far g hg y z with h' | h'
    · exact absurd h.2 (not_lt.2 h')
    · exact h'
  have hn : (init_npt g .ion y z).n ≠ 0 := ne_of_gt (lt_of_lt_of_le hg.nnb (ion_n_bounds g hg y z).1)
  unfold current
  rw [ion_p0, el_n]
  have e : (init_npt g .electron y z).p 0 = -g.BB * π / (2 * g.LLB) * cos (π * (g.LLn - radius (y + 1 / 2 * g.LLy) z) / (2 * g.LLB)) /
      (init_npt g .ion y z).n := by
    rw [npt_el, npt_ion]
    simp only []
    rw [drift_out g _ z _ hfar, drift_in g _ z _ h]
  rw [e]
  generalize (init_npt g .ion y z).n = n at hn ⊢
  field_simp
  ring

theorem current2 (g : Params) (hg : g.Ok) (y z : ℝ) (h : InShell g (radius (y - 1 / 2 * g.LLy) z)) :
    current g y z = g.BB * π / (2 * g.LLB) * cos (π * (g.LLn - radius (y - 1 / 2 * g.LLy) z) / (2 * g.LLB)) := by
  have hn : (init_npt g .ion y z).n ≠ 0 := ne_of_gt (lt_of_lt_of_le hg.nnb (ion_n_bounds g hg y z).1)
  unfold current
  rw [ion_p0, el_n]
  have e : (init_npt g .electron y z).p 0 = -g.BB * π / (2 * g.LLB) * cos (π * (g.LLn - radius (y - 1 / 2 * g.LLy) z) / (2 * g.LLB)) /
      (init_npt g .ion y z).n := by
    rw [npt_el, npt_ion]
    simp only []
    rw [drift_in g _ z _ h, (drift_n g _ z _).1]
  rw [e]
  generalize (init_npt g .ion y z).n = n at hn ⊢
  field_simp
  ring

theorem shell_sin_pos (g : Params) (hg : g.Ok) (r : ℝ) (h : InShell g r) : 0 < sin (π * (g.LLn - r) / (2 * g.LLB)) := by
  have hB := hg.LLB
  refine sin_pos_of_pos_of_lt_pi ?_ ?_
  · exact div_pos (mul_pos pi_pos (by linarith [h.2])) (by linarith)
  · rw [div_lt_iff₀ (by linarith)]
    have : g.LLn - r < 2 * g.LLB := by linarith [h.1]
    nlinarith [pi_pos]

/-! ## periodicity -/

theorem radius_neg (a z : ℝ) : radius a (-z) = radius a z := by unfold radius; rw [neg_sq]

theorem far_y (g : Params) (hg : g.Ok) (z : ℝ) (a : ℝ) (ha : |a| = g.LLy) : g.LLn < radius a z := by
  have h1 := abs_le_radius a z
  have h2 := hg.apart
  have h3 := LLn_pos hg
  linarith

theorem far_z (g : Params) (hg : g.Ok) (a z : ℝ) (hz : |z| = g.LLz / 2) : g.LLn ≤ radius a z := by
  have h1 := abs_le_radius' a z
  have h2 := hg.inside
  linarith

theorem per_y_field (g : Params) (hg : g.Ok) (m : Comp) (z : ℝ) : init_field g m (-(g.LLy / 2)) z = init_field g m (g.LLy / 2) z := by
  have h0 := LLn_pos hg
  have hy := hg.apart
  unfold init_field
  have e1 : -(g.LLy / 2) + 1 / 2 * g.LLy = 0 := by ring
  have e2 : g.LLy / 2 - 1 / 2 * g.LLy = 0 := by ring
  have e3 : -(g.LLy / 2) - 1 / 2 * g.LLy = -g.LLy := by ring
  have e4 : g.LLy / 2 + 1 / 2 * g.LLy = g.LLy := by ring
  rw [e1, e2, e3, e4, shell_out g m (-g.LLy) z (not_in_of_ge g _ (far_y g hg z _ (by rw [abs_neg, abs_of_pos (by linarith)])).le),
    shell_out g m g.LLy z (not_in_of_ge g _ (far_y g hg z _ (abs_of_pos (by linarith))).le)]
  ring

theorem per_y_npt (g : Params) (hg : g.Ok) (k : Kind) (z : ℝ) : init_npt g k (-(g.LLy / 2)) z = init_npt g k (g.LLy / 2) z := by
  have h0 := LLn_pos hg
  have hy := hg.apart
  have e1 : -(g.LLy / 2) + 1 / 2 * g.LLy = 0 := by ring
  have e2 : g.LLy / 2 - 1 / 2 * g.LLy = 0 := by ring
  have e3 : -(g.LLy / 2) - 1 / 2 * g.LLy = -g.LLy := by ring
  have e4 : g.LLy / 2 + 1 / 2 * g.LLy = g.LLy := by ring
  have f1 := far_y g hg z (-g.LLy) (by rw [abs_neg, abs_of_pos (by linarith)])
  have f2 := far_y g hg z g.LLy (abs_of_pos (by linarith))
  cases k
  · rw [npt_el, npt_el, e1, e2, e3, e4, drift_out g (-g.LLy) z _ f1, bubble_out g (-g.LLy) z _ f1.le, bubble_out g g.LLy z _ f2.le,
      drift_out g g.LLy z _ f2]
  · rw [npt_ion, npt_ion, e1, e2, e3, e4, bubble_out g (-g.LLy) z _ f1.le, bubble_out g g.LLy z _ f2.le]

theorem per_z_field (g : Params) (hg : g.Ok) (m : Comp) (y : ℝ) : init_field g m y (-(g.LLz / 2)) = init_field g m y (g.LLz / 2) := by
  have h0 := LLn_pos hg
  have hz := hg.inside
  have k : |-(g.LLz / 2)| = g.LLz / 2 := by rw [abs_neg, abs_of_pos (by linarith)]
  have k' : |g.LLz / 2| = g.LLz / 2 := abs_of_pos (by linarith)
  unfold init_field
  rw [shell_out g m _ _ (not_in_of_ge g _ (far_z g hg (y + 1 / 2 * g.LLy) _ k)),
    shell_out g m _ _ (not_in_of_ge g _ (far_z g hg (y - 1 / 2 * g.LLy) _ k)),
    shell_out g m _ _ (not_in_of_ge g _ (far_z g hg (y + 1 / 2 * g.LLy) _ k')),
    shell_out g m _ _ (not_in_of_ge g _ (far_z g hg (y - 1 / 2 * g.LLy) _ k'))]

theorem drift_neg (g : Params) (a z : ℝ) (x : Npt) : drift g a (-z) x = drift g a z x := by
  unfold drift
  simp only [radius_neg]

theorem per_z_npt (g : Params) (hg : g.Ok) (k : Kind) (y : ℝ) : init_npt g k y (-(g.LLz / 2)) = init_npt g k y (g.LLz / 2) := by
  have h0 := LLn_pos hg
  have hz := hg.inside
  have a1 : |-(g.LLz / 2)| = g.LLz / 2 := by rw [abs_neg, abs_of_pos (by linarith)]
  have a2 : |g.LLz / 2| = g.LLz / 2 := abs_of_pos (by linarith)
  have f1 := far_z g hg (y + 1 / 2 * g.LLy) _ a1
  have f2 := far_z g hg (y - 1 / 2 * g.LLy) _ a1
  have f3 := far_z g hg (y + 1 / 2 * g.LLy) _ a2
  have f4 := far_z g hg (y - 1 / 2 * g.LLy) _ a2
  cases k
  · rw [npt_el, npt_el, bubble_out g _ _ _ f1, bubble_out g _ _ _ f2, bubble_out g _ _ _ f3, bubble_out g _ _ _ f4, drift_neg, drift_neg]
  · rw [npt_ion, npt_ion, bubble_out g _ _ _ f1, bubble_out g _ _ _ f2, bubble_out g _ _ _ f3, bubble_out g _ _ _ f4]

theorem driver_ok : driver.Ok := by
  constructor <;> norm_num [driver]

end Psc.Bubble
