import Verif.Lemmas.Storage
import Verif.Props.Push

/-!
# C56: the particle push stays inside the storage of the patch
-/

namespace Psc.Props

open Spec Push

/-- Particles of a patch that lie in it. -/
def InPatch (ldims : I3) (P : Params) (ps : List Prt) : Prop :=
  ∀ p ∈ ps, ∀ d, 0 ≤ p.x d ∧ p.x d < ldims d * P.dx d

/-- What C56 says of one push configuration: all deposits go to storage, and what the push does depends only on field values
in the storage. -/
def PushInStorage (c : Config) (P : Params) (ldims ibn : I3) (ps : List Prt) : Prop :=
  (∀ EM, WritesStorage ldims ibn (pushAll c P EM ps).2) ∧
  (∀ EM EM', SameStorage ldims ibn EM EM' → pushAll c P EM ps = pushAll c P EM' ps)

theorem pushInStorage (c : Config) (P : Params) (act : Fin 3 → Bool) (h : GoodStep act P)
    (hact : ∀ d, act d = !(c.inv d)) (ldims ibn : I3)
    (hcur : ∀ (qw : ℝ) (v xm xp : R3 ℝ), (∀ d, |v d| < 1) → (∀ d, 0 ≤ xm d ∧ xm d < ldims d) →
      (∀ d, act d = true → |xp d - xm d| < 1) → WritesStorage ldims ibn (c.current P qw v xm xp))
    (hint : ∀ (u : R3 ℝ) (EM EM' : Interp.Fld ℝ), (∀ d, 0 ≤ u d ∧ u d < ldims d) → SameStorage ldims ibn EM EM' →
      c.interp u EM = c.interp u EM')
    (ps : List Prt) (hp : InPatch ldims P ps) : PushInStorage c P ldims ibn ps := by
  have hx : ∀ p ∈ ps, ∀ d, 0 ≤ p.x d * (1 / P.dx d) ∧ p.x d * (1 / P.dx d) < ldims d := by
    intro p hm d
    obtain ⟨a, b⟩ := hp p hm d
    have hd := h.dx_pos d
    refine ⟨mul_nonneg a (by positivity), ?_⟩
    rw [mul_one_div, div_lt_iff₀ hd]; exact b
  constructor
  · intro EM
    clear hp
    induction ps with
    | nil => intro e he; simp [pushAll] at he
    | cons p ps ih =>
      intro e he
      simp only [pushAll, List.mem_append] at he
      rcases he with he | he
      · refine hcur p.qw (calc_v (pushOne c P EM p).1.u) (fun d => p.x d * (1 / P.dx d))
          (fun d => (pushOne c P EM p).1.x d * (1 / P.dx d)) (calc_v_lt _) (hx p List.mem_cons_self) ?_ e he
        intro d hd
        have hi : c.inv d = false := by
          have := hact d; rw [hd] at this; simpa using this.symm
        simp only [pushOne, push_x, hi, Bool.false_eq_true, if_false]
        exact move_short (calc_v_lt _ d) h.dt_pos (h.courant d hd)
      · exact ih (fun p hp => hx p (List.mem_cons_of_mem _ hp)) e he
  · intro EM EM' hs
    clear hp
    induction ps with
    | nil => rfl
    | cons p ps ih =>
      have e : pushOne c P EM p = pushOne c P EM' p := by
        unfold pushOne
        simp only
        rw [hint _ EM EM' (hx p List.mem_cons_self) hs]
      simp only [pushAll]
      rw [e, ih (fun p hp => hx p (List.mem_cons_of_mem _ hp))]

section bounds
variable {act : Fin 3 → Bool} {ldims ibn : I3}

theorem room_writes {w : ℤ} (hr : Room act w ldims ibn) {lo hi : I3} {evs : List (Add ℝ)} (h : EvIn lo hi evs)
    (ha : ∀ d, act d = true → -w ≤ lo d ∧ hi d < ldims d + w) (hi' : ∀ d, act d = false → 0 ≤ lo d ∧ hi d ≤ 0) :
    WritesStorage ldims ibn evs := by
  refine h.writes (fun d => ?_) (fun d => ?_)
  · cases e : act d
    · have := hr.inv d e; have := hi' d e; omega
    · have := hr.active d e; have := ha d e; omega
  · cases e : act d
    · have := hr.inv d e; have := hi' d e; omega
    · have := hr.active d e; have := ha d e; omega

/-- positions before and after a move of less than a cell from inside the patch -/
theorem move_box {xm xp : ℝ} {n : ℤ} (h : 0 ≤ xm ∧ xm < n) (hs : |xp - xm| < 1) :
    ((-1 : ℤ) : ℝ) ≤ xm ∧ xm < ((n + 1 : ℤ) : ℝ) ∧ ((-1 : ℤ) : ℝ) ≤ xp ∧ xp < ((n + 1 : ℤ) : ℝ) := by
  obtain ⟨a, b⟩ := abs_lt.1 hs
  push_cast
  exact ⟨by linarith, by linarith, by linarith, by linarith⟩

end bounds

/-- in-cell position used in an invariant direction stays in cell 0 -/
theorem inv_box {v dt dx : ℝ} (hv : |v| < 1) (h0 : 0 < dt) (h : 2 * dt ≤ dx) :
    ((0 : ℤ) : ℝ) ≤ 1/2 + v * dt * (1 / dx) ∧ 1/2 + v * dt * (1 / dx) < ((1 : ℤ) : ℝ) := by
  have hdx : 0 < dx := by linarith
  obtain ⟨a, b⟩ := abs_lt.1 hv
  have l : -(1/2) < v * dt * (1 / dx) := by
    rw [mul_one_div, lt_div_iff₀ hdx]; nlinarith
  have u : v * dt * (1 / dx) < 1/2 := by
    rw [mul_one_div, div_lt_iff₀ hdx]; nlinarith
  push_cast
  constructor <;> linarith

/-- **C56 (1vb split, 3-d).** Two ghost points are enough. -/
theorem C56_split_xyz (P : Params) (h : GoodStep xyz P) (ldims ibn : I3) (hr : Room xyz 2 ldims ibn) (ps : List Prt)
    (hp : InPatch ldims P ps) : PushInStorage cfgSplit_xyz P ldims ibn ps := by
  have r0 := hr.active 0 rfl; have r1 := hr.active 1 rfl; have r2 := hr.active 2 rfl
  refine pushInStorage _ P xyz h (by intro d; fin_cases d <;> rfl) _ _ ?_ ?_ ps hp
  · intro qw v xm xp _ hm hs
    have hb := fun d : Fin 3 => move_box (hm d) (hs d (by fin_cases d <;> rfl))
    refine room_writes hr (lo := fun _ => -1) (hi := fun d => ldims d + 1) ?_ (fun d _ => ⟨by omega, by omega⟩)
      (by intro d hd; exfalso; revert hd; fin_cases d <;> decide)
    refine Current1vb.splitZ_in (lo := fun _ => -1) (hi := fun d => ldims d + 1) _ _
      (fun i qw dx xa hi => Current1vb.dep_xyz_in _ i qw dx xa hi) _ _ _ ?_ ?_
    · intro d; fin_cases d <;> exact ⟨(hb _).1, (hb _).2.1⟩
    · intro d; fin_cases d <;> exact ⟨(hb _).2.2.1, (hb _).2.2.2⟩
  · intro u EM EM' hu hs
    have h0 := Interp.c1_in (hu 0).1 (hu 0).2
    have h1 := Interp.c1_in (hu 1).1 (hu 1).2
    have h2 := Interp.c1_in (hu 2).1 (hu 2).2
    have hE := Interp.same' hs
    show Interp.interp_ec_xyz u EM = Interp.interp_ec_xyz u EM'
    unfold Interp.interp_ec_xyz Interp.ec_xyz
    simp (disch := omega) only [hE]

/-- **C56 (1vb split, yz).** Partial: needs `2 dt ≤ dx` in the invariant direction; without it the property is false,
`C56_split_yz_violation`. -/
theorem C56_split_yz_partial (P : Params) (h : GoodStep yz P) (hx : 2 * P.dt ≤ P.dx 0) (ldims ibn : I3)
    (hr : Room yz 2 ldims ibn) (ps : List Prt) (hp : InPatch ldims P ps) :
    PushInStorage cfgSplit_yz P ldims ibn ps := by
  have r0 := hr.inv 0 rfl; have r1 := hr.active 1 rfl; have r2 := hr.active 2 rfl
  refine pushInStorage _ P yz h (by intro d; fin_cases d <;> rfl) _ _ ?_ ?_ ps hp
  · intro qw v xm xp hv hm hs
    have b1 := move_box (hm 1) (hs 1 rfl); have b2 := move_box (hm 2) (hs 2 rfl)
    have b0 := inv_box (hv 0) h.dt_pos hx
    refine room_writes hr (lo := ![0, -1, -1]) (hi := ![0, ldims 1 + 1, ldims 2 + 1]) ?_ ?_ ?_
    · refine Current1vb.splitZ_in (lo := ![0, -1, -1]) (hi := ![1, ldims 1 + 1, ldims 2 + 1]) _ _
        (fun i qw dx xa hi => ?_) _ _ _ ?_ ?_
      · exact Current1vb.dep_yz_in _ i qw dx xa hi
      · intro d; fin_cases d
        · simp [Current1vb.fixInvar]
          norm_num
        · exact ⟨b1.1, b1.2.1⟩
        · exact ⟨b2.1, b2.2.1⟩
      · intro d; fin_cases d
        · exact b0
        · exact ⟨b1.2.2.1, b1.2.2.2⟩
        · exact ⟨b2.2.2.1, b2.2.2.2⟩
    · intro d hd; revert hd; fin_cases d <;> simp [yz] <;> omega
    · intro d hd; revert hd; fin_cases d <;> simp [yz]
  · intro u EM EM' hu hs
    have h0 := Interp.c1_in (hu 0).1 (hu 0).2
    have h1 := Interp.c1_in (hu 1).1 (hu 1).2
    have h2 := Interp.c1_in (hu 2).1 (hu 2).2
    have hE := Interp.same' hs
    show Interp.interp_ec_yz u EM = Interp.interp_ec_yz u EM'
    unfold Interp.interp_ec_yz Interp.ec_yz
    simp (disch := omega) only [hE]

/-- **C56 (1vb split, xz).** Partial: needs `2 dt ≤ dx` in the invariant direction; without it the property is false,
`C56_split_yz_violation`. -/
theorem C56_split_xz_partial (P : Params) (h : GoodStep xz P) (hx : 2 * P.dt ≤ P.dx 1) (ldims ibn : I3)
    (hr : Room xz 2 ldims ibn) (ps : List Prt) (hp : InPatch ldims P ps) :
    PushInStorage cfgSplit_xz P ldims ibn ps := by
  have r0 := hr.inv 1 rfl; have r1 := hr.active 0 rfl; have r2 := hr.active 2 rfl
  refine pushInStorage _ P xz h (by intro d; fin_cases d <;> rfl) _ _ ?_ ?_ ps hp
  · intro qw v xm xp hv hm hs
    have b1 := move_box (hm 0) (hs 0 rfl); have b2 := move_box (hm 2) (hs 2 rfl)
    have b0 := inv_box (hv 1) h.dt_pos hx
    refine room_writes hr (lo := ![-1, 0, -1]) (hi := ![ldims 0 + 1, 0, ldims 2 + 1]) ?_ ?_ ?_
    · refine Current1vb.splitZ_in (lo := ![-1, 0, -1]) (hi := ![ldims 0 + 1, 1, ldims 2 + 1]) _ _
        (fun i qw dx xa hi => ?_) _ _ _ ?_ ?_
      · exact Current1vb.dep_xz_in _ i qw dx xa hi
      · intro d; fin_cases d
        · exact ⟨b1.1, b1.2.1⟩
        · simp [Current1vb.fixInvar]
          norm_num
        · exact ⟨b2.1, b2.2.1⟩
      · intro d; fin_cases d
        · exact ⟨b1.2.2.1, b1.2.2.2⟩
        · exact b0
        · exact ⟨b2.2.2.1, b2.2.2.2⟩
    · intro d hd; revert hd; fin_cases d <;> simp [xz] <;> omega
    · intro d hd; revert hd; fin_cases d <;> simp [xz]
  · intro u EM EM' hu hs
    have h0 := Interp.c1_in (hu 0).1 (hu 0).2
    have h1 := Interp.c1_in (hu 1).1 (hu 1).2
    have h2 := Interp.c1_in (hu 2).1 (hu 2).2
    have hE := Interp.same' hs
    show Interp.interp_ec_xz u EM = Interp.interp_ec_xz u EM'
    unfold Interp.interp_ec_xz Interp.ec_xz
    simp (disch := omega) only [hE]

/-- **C56 (1vb var1, yz).** Any velocity in the invariant direction. -/
theorem C56_var1_yz (P : Params) (h : GoodStep yz P) (ldims ibn : I3) (hr : Room yz 2 ldims ibn) (ps : List Prt)
    (hp : InPatch ldims P ps) : PushInStorage cfgVar1_yz P ldims ibn ps := by
  have r0 := hr.inv 0 rfl; have r1 := hr.active 1 rfl; have r2 := hr.active 2 rfl
  refine pushInStorage _ P yz h (by intro d; fin_cases d <;> rfl) _ _ ?_ ?_ ps hp
  · intro qw v xm xp hv hm hs
    have f : ∀ d, yz d = true → (-1 ≤ ⌊xm d⌋ ∧ ⌊xm d⌋ < ldims d + 1) ∧ (-1 ≤ ⌊xp d⌋ ∧ ⌊xp d⌋ < ldims d + 1) := by
      intro d hd
      obtain ⟨a1, a2, a3, a4⟩ := move_box (hm d) (hs d hd)
      exact ⟨⟨Int.le_floor.2 a1, Int.floor_lt.2 a2⟩, ⟨Int.le_floor.2 a3, Int.floor_lt.2 a4⟩⟩
    have f1 := f 1 rfl; have f2 := f 2 rfl
    refine room_writes hr (lo := ![0, -1, -1]) (hi := ![0, ldims 1 + 1, ldims 2 + 1]) ?_ ?_ ?_
    · refine CurrentVar1.run_in _ (fun i x dx h1 h2 => CurrentVar1.vbCell_in (by simp) _ _ i x dx h1 h2) _ _ ?_ ?_ ?_ ?_ <;>
        simp [CurrentVar1.init] <;> omega
    · intro d hd; revert hd; fin_cases d <;> simp [yz] <;> omega
    · intro d hd; revert hd; fin_cases d <;> simp [yz]
  · intro u EM EM' hu hs
    have h1 := Interp.c1_in (hu 1).1 (hu 1).2
    have h2 := Interp.c1_in (hu 2).1 (hu 2).2
    have hE := Interp.same' hs
    show Interp.interp_ec_yz u EM = Interp.interp_ec_yz u EM'
    unfold Interp.interp_ec_yz Interp.ec_yz
    simp (disch := omega) only [hE]

/-- **C56 (1st-order Esirkepov, yz).** Two ghost points are enough. -/
theorem C56_esirkepov1_yz (P : Params) (h : GoodStep yz P) (ldims ibn : I3)
    (hr : Room yz 2 ldims ibn) (ps : List Prt) (hp : InPatch ldims P ps) : PushInStorage cfgEsirkepov1_yz P ldims ibn ps := by
  have r0 := hr.inv 0 rfl; have r1 := hr.active 1 rfl; have r2 := hr.active 2 rfl
  refine pushInStorage _ P yz h (by intro d; fin_cases d <;> rfl) _ _ ?_ ?_ ps hp
  · intro qw v xm xp hv hm hs
    refine room_writes hr (lo := ![0, -1, -1]) (hi := ![0, ldims 1 + 1, ldims 2 + 1]) ?_ ?_ ?_
    · refine Esirkepov.calc_yz_1st_in _ (by simp) (Esirkepov.dir1_in (hm 1).1 (hm 1).2) (Esirkepov.dir1_in (hm 2).1 (hm 2).2)
    · intro d hd; revert hd; fin_cases d <;> simp [yz] <;> omega
    · intro d hd; revert hd; fin_cases d <;> simp [yz]
  · intro u EM EM' hu hs
    funext m
    have h1 := Interp.cf1_in (m := m) (d := 1) (hu 1).1 (hu 1).2
    have h2 := Interp.cf1_in (m := m) (d := 2) (hu 2).1 (hu 2).2
    have hE := Interp.same' hs
    show Interp.interp_1st_yz u EM m = Interp.interp_1st_yz u EM' m
    unfold Interp.interp_1st_yz Interp.cc1_yz
    simp (disch := omega) only [hE]

/-- **C56 (1st-order Esirkepov, xz).** Two ghost points are enough. -/
theorem C56_esirkepov1_xz (P : Params) (h : GoodStep xz P) (ldims ibn : I3)
    (hr : Room xz 2 ldims ibn) (ps : List Prt) (hp : InPatch ldims P ps) : PushInStorage cfgEsirkepov1_xz P ldims ibn ps := by
  have r0 := hr.active 0 rfl; have r1 := hr.inv 1 rfl; have r2 := hr.active 2 rfl
  refine pushInStorage _ P xz h (by intro d; fin_cases d <;> rfl) _ _ ?_ ?_ ps hp
  · intro qw v xm xp hv hm hs
    refine room_writes hr (lo := ![-1, 0, -1]) (hi := ![ldims 0 + 1, 0, ldims 2 + 1]) ?_ ?_ ?_
    · refine Esirkepov.calc_xz_in _ (Esirkepov.dir1_in (hm 0).1 (hm 0).2) (by simp) (Esirkepov.dir1_in (hm 2).1 (hm 2).2)
    · intro d hd; revert hd; fin_cases d <;> simp [xz] <;> omega
    · intro d hd; revert hd; fin_cases d <;> simp [xz]
  · intro u EM EM' hu hs
    funext m
    have h0 := Interp.cf1_in (m := m) (d := 0) (hu 0).1 (hu 0).2
    have h2 := Interp.cf1_in (m := m) (d := 2) (hu 2).1 (hu 2).2
    have hE := Interp.same' hs
    show Interp.interp_1st_xz u EM m = Interp.interp_1st_xz u EM' m
    unfold Interp.interp_1st_xz Interp.cc1_xz
    simp (disch := omega) only [hE]

/-- **C56 (2nd-order Esirkepov, xyz).** Three ghost points are enough. (Two are not, `C56_esirkepov2_violation`.) -/
theorem C56_esirkepov2_xyz_partial (P : Params) (h : GoodStep xyz P) (ldims ibn : I3)
    (hr : Room xyz 3 ldims ibn) (ps : List Prt) (hp : InPatch ldims P ps) : PushInStorage cfgEsirkepov2_xyz P ldims ibn ps := by
  have r0 := hr.active 0 rfl; have r1 := hr.active 1 rfl; have r2 := hr.active 2 rfl
  refine pushInStorage _ P xyz h (by intro d; fin_cases d <;> rfl) _ _ ?_ ?_ ps hp
  · intro qw v xm xp hv hm hs
    refine room_writes hr (lo := ![-2, -2, -2]) (hi := ![ldims 0 + 2, ldims 1 + 2, ldims 2 + 2]) ?_ ?_ ?_
    · refine Esirkepov.calc_xyz_in (Esirkepov.dir2_in (hm 0).1 (hm 0).2) (Esirkepov.dir2_in (hm 1).1 (hm 1).2) (Esirkepov.dir2_in (hm 2).1 (hm 2).2)
    · intro d hd; revert hd; fin_cases d <;> simp [xyz] <;> omega
    · intro d hd; revert hd; fin_cases d <;> simp [xyz]
  · intro u EM EM' hu hs
    funext m
    have h0 := Interp.cf2_in (m := m) (d := 0) (hu 0).1 (hu 0).2
    have h1 := Interp.cf2_in (m := m) (d := 1) (hu 1).1 (hu 1).2
    have h2 := Interp.cf2_in (m := m) (d := 2) (hu 2).1 (hu 2).2
    have hE := Interp.same' hs
    show Interp.interp_2nd_xyz u EM m = Interp.interp_2nd_xyz u EM' m
    unfold Interp.interp_2nd_xyz Interp.cc2_xyz
    simp (disch := omega) only [hE]

/-- **C56 (2nd-order Esirkepov, yz).** Three ghost points are enough. (Two are not, `C56_esirkepov2_violation`.) -/
theorem C56_esirkepov2_yz_partial (P : Params) (h : GoodStep yz P) (ldims ibn : I3)
    (hr : Room yz 3 ldims ibn) (ps : List Prt) (hp : InPatch ldims P ps) : PushInStorage cfgEsirkepov2_yz P ldims ibn ps := by
  have r0 := hr.inv 0 rfl; have r1 := hr.active 1 rfl; have r2 := hr.active 2 rfl
  refine pushInStorage _ P yz h (by intro d; fin_cases d <;> rfl) _ _ ?_ ?_ ps hp
  · intro qw v xm xp hv hm hs
    refine room_writes hr (lo := ![0, -2, -2]) (hi := ![0, ldims 1 + 2, ldims 2 + 2]) ?_ ?_ ?_
    · refine Esirkepov.calc_yz_2nd_in _ (by simp) (Esirkepov.dir2_in (hm 1).1 (hm 1).2) (Esirkepov.dir2_in (hm 2).1 (hm 2).2)
    · intro d hd; revert hd; fin_cases d <;> simp [yz] <;> omega
    · intro d hd; revert hd; fin_cases d <;> simp [yz]
  · intro u EM EM' hu hs
    funext m
    have h1 := Interp.cf2_in (m := m) (d := 1) (hu 1).1 (hu 1).2
    have h2 := Interp.cf2_in (m := m) (d := 2) (hu 2).1 (hu 2).2
    have hE := Interp.same' hs
    show Interp.interp_2nd_yz u EM m = Interp.interp_2nd_yz u EM' m
    unfold Interp.interp_2nd_yz Interp.cc2_yz
    simp (disch := omega) only [hE]

/-- **C56 (2nd-order Esirkepov, xz).** Three ghost points are enough. (Two are not, `C56_esirkepov2_violation`.) -/
theorem C56_esirkepov2_xz_partial (P : Params) (h : GoodStep xz P) (ldims ibn : I3)
    (hr : Room xz 3 ldims ibn) (ps : List Prt) (hp : InPatch ldims P ps) : PushInStorage cfgEsirkepov2_xz P ldims ibn ps := by
  have r0 := hr.active 0 rfl; have r1 := hr.inv 1 rfl; have r2 := hr.active 2 rfl
  refine pushInStorage _ P xz h (by intro d; fin_cases d <;> rfl) _ _ ?_ ?_ ps hp
  · intro qw v xm xp hv hm hs
    refine room_writes hr (lo := ![-2, 0, -2]) (hi := ![ldims 0 + 2, 0, ldims 2 + 2]) ?_ ?_ ?_
    · refine Esirkepov.calc_xz_in _ (Esirkepov.dir2_in (hm 0).1 (hm 0).2) (by simp) (Esirkepov.dir2_in (hm 2).1 (hm 2).2)
    · intro d hd; revert hd; fin_cases d <;> simp [xz] <;> omega
    · intro d hd; revert hd; fin_cases d <;> simp [xz]
  · intro u EM EM' hu hs
    funext m
    have h0 := Interp.cf2_in (m := m) (d := 0) (hu 0).1 (hu 0).2
    have h2 := Interp.cf2_in (m := m) (d := 2) (hu 2).1 (hu 2).2
    have hE := Interp.same' hs
    show Interp.interp_2nd_xz u EM m = Interp.interp_2nd_xz u EM' m
    unfold Interp.interp_2nd_xz Interp.cc2_xz
    simp (disch := omega) only [hE]

/-- **C56 (2nd-order Esirkepov, xy).** Three ghost points are enough. (Two are not, `C56_esirkepov2_violation`.) -/
theorem C56_esirkepov2_xy_partial (P : Params) (h : GoodStep xy P) (ldims ibn : I3)
    (hr : Room xy 3 ldims ibn) (ps : List Prt) (hp : InPatch ldims P ps) : PushInStorage cfgEsirkepov2_xy P ldims ibn ps := by
  have r0 := hr.active 0 rfl; have r1 := hr.active 1 rfl; have r2 := hr.inv 2 rfl
  refine pushInStorage _ P xy h (by intro d; fin_cases d <;> rfl) _ _ ?_ ?_ ps hp
  · intro qw v xm xp hv hm hs
    refine room_writes hr (lo := ![-2, -2, 0]) (hi := ![ldims 0 + 2, ldims 1 + 2, 0]) ?_ ?_ ?_
    · refine Esirkepov.calc_xy_in _ (Esirkepov.dir2_in (hm 0).1 (hm 0).2) (Esirkepov.dir2_in (hm 1).1 (hm 1).2) (by simp)
    · intro d hd; revert hd; fin_cases d <;> simp [xy] <;> omega
    · intro d hd; revert hd; fin_cases d <;> simp [xy]
  · intro u EM EM' hu hs
    funext m
    have h0 := Interp.cf2_in (m := m) (d := 0) (hu 0).1 (hu 0).2
    have h1 := Interp.cf2_in (m := m) (d := 1) (hu 1).1 (hu 1).2
    have hE := Interp.same' hs
    show Interp.interp_2nd_xy u EM m = Interp.interp_2nd_xy u EM' m
    unfold Interp.interp_2nd_xy Interp.cc2_xy
    simp (disch := omega) only [hE]

/-! ### Charge density -/

theorem rho_writes (dep : R3 ℝ → ℝ → List (Add ℝ)) (P : Params) (hdx : ∀ d, 0 < P.dx d) (ldims ibn : I3)
    (hd : ∀ (x : R3 ℝ) (v : ℝ), (∀ d, 0 ≤ x d ∧ x d < (ldims d : ℝ)) → WritesStorage ldims ibn (dep x v)) (ps : List Prt)
    (hp : InPatch ldims P ps) : WritesStorage ldims ibn (rho dep P ps) := by
  intro e he
  obtain ⟨p, hm, he⟩ := List.mem_flatMap.1 he
  refine hd _ _ (fun d => ?_) e he
  obtain ⟨a, b⟩ := hp p hm d
  have := hdx d
  refine ⟨mul_nonneg a (by positivity), ?_⟩
  rw [mul_one_div, div_lt_iff₀ this]; exact b

/-- **C56 (charge density).** The charge deposition of particles in their patch needs one ghost point (1st order) or two
(2nd order), in 3-d and in yz. -/
theorem C56_rho (P : Params) (hdx : ∀ d, 0 < P.dx d) (ldims ibn : I3) (ps : List Prt) (hp : InPatch ldims P ps) :
    (Room xyz 1 ldims ibn → WritesStorage ldims ibn (rho Deposit.nc1_xyz P ps)) ∧
    (Room yz 1 ldims ibn → WritesStorage ldims ibn (rho Deposit.nc1_yz P ps)) ∧
    (Room xyz 2 ldims ibn → WritesStorage ldims ibn (rho Deposit.nc2_xyz P ps)) ∧
    (Room yz 2 ldims ibn → WritesStorage ldims ibn (rho Deposit.nc2_yz P ps)) := by
  refine ⟨fun hr => ?_, fun hr => ?_, fun hr => ?_, fun hr => ?_⟩ <;>
    refine rho_writes _ P hdx ldims ibn (fun x v hx => ?_) ps hp
  · refine room_writes hr (Deposit.nc1_xyz_in x v hx) (fun d _ => ⟨by simp, by simp⟩)
      (by intro d hd; exfalso; revert hd; fin_cases d <;> decide)
  · have := hr.inv 0 rfl
    refine room_writes hr (Deposit.nc1_yz_in (n := ldims) (by omega) x v fun d _ => hx d) ?_ ?_
    · intro d hd; revert hd; fin_cases d <;> simp [yz]
    · intro d hd; revert hd; fin_cases d <;> simp [yz]
  · refine room_writes hr (Deposit.nc2_xyz_in x v hx) (fun d _ => ⟨by simp, by simp⟩)
      (by intro d hd; exfalso; revert hd; fin_cases d <;> decide)
  · refine room_writes hr (Deposit.nc2_yz_in x v fun d _ => hx d) ?_ ?_
    · intro d hd; revert hd; fin_cases d <;> simp [yz]
    · intro d hd; revert hd; fin_cases d <;> simp [yz]

/-! ### Cases that meet the hypotheses, and violations -/

/-- spacing 1, time step 7/10: below the Courant limit `1/√2` of two active directions -/
noncomputable def exStorP : Params := ⟨fun _ => 1, 7/10, 1, 1, fun _ => -1, fun _ => 1⟩

theorem exStor_good : GoodStep yz exStorP :=
  ⟨by norm_num [exStorP], by intro d; norm_num [exStorP], by intro d _; norm_num [exStorP]⟩

/-- a particle just below the upper z boundary of a patch of 4×4 cells, moving out of it -/
noncomputable def exStorPrt : Prt := ⟨![1/2, 2, 4 - 1/20], ![2/3, 0, 2], 1, 0⟩

theorem exStor_in : InPatch ![1, 4, 4] exStorP [exStorPrt] := by
  intro p hp d
  rw [List.mem_singleton] at hp
  subst hp
  fin_cases d <;> norm_num [exStorP, exStorPrt]

theorem exStor_push : (pushAll cfgEsirkepov2_yz exStorP (fun _ _ _ _ => 0) [exStorPrt]).2 =
    Esirkepov.calc_yz_2nd (Esirkepov.dir2 2 2 (10/7)) (Esirkepov.dir2 (79/20) (91/20) (10/7)) (2/7) := by
  have hr : rsqrt (1 + 2/3 * (2/3) + 0 * 0 + 2 * 2) = 3/7 := by
    unfold rsqrt
    rw [show (1 + 2/3 * (2/3) + 0 * 0 + 2 * 2 : ℝ) = (7/3)^2 by norm_num, Real.sqrt_sq (by norm_num)]
    norm_num
  have hp : push_p exStorPrt.u ![0, 0, 0] ![0, 0, 0] (1/2 * exStorP.eta * exStorP.dt * exStorP.q 0 / exStorP.m 0) =
      ![2/3, 0, 2] := by
    funext d
    fin_cases d <;> simp [push_p, exStorPrt]
  have hv : calc_v ![2/3, 0, 2] = ![2/7, 0, 6/7] := by
    funext d
    unfold calc_v
    simp only [Matrix.cons_val_zero, Matrix.cons_val_one, Matrix.cons_val]
    rw [hr]
    fin_cases d <;> norm_num
  simp only [pushAll, List.append_nil, pushOne]
  have hi : ∀ u, cfgEsirkepov2_yz.interp u (fun _ _ _ _ => 0) = fun _ => 0 := by
    intro u; funext m
    simp [cfgEsirkepov2_yz, Interp.interp_2nd_yz, Interp.cc2_yz]
  rw [hi]
  rw [show exStorPrt.kind = 0 from rfl, hp, hv]
  simp only [cfgEsirkepov2_yz, push_x, exStorPrt, exStorP, Esirkepov.fq, Matrix.cons_val_zero, Matrix.cons_val_one,
    Matrix.cons_val, Bool.false_eq_true, if_false]
  norm_num

/-- **C56 is false for the 2nd-order push with two ghost points** (the width all the drivers set): a particle that lies in
its patch, in a time step below the Courant limit, adds a nonzero current outside the storage of the patch. -/
theorem C56_esirkepov2_violation :
    GoodStep yz exStorP ∧ InPatch ![1, 4, 4] exStorP [exStorPrt] ∧ Room yz 2 ![1, 4, 4] ![0, 2, 2] ∧
    ∃ e ∈ (pushAll cfgEsirkepov2_yz exStorP (fun _ _ _ _ => 0) [exStorPrt]).2,
      e.v ≠ 0 ∧ ¬ InStorage ![1, 4, 4] ![0, 2, 2] e.i e.j e.k := by
  refine ⟨exStor_good, exStor_in, ⟨by decide, by decide⟩, ?_⟩
  rw [exStor_push]
  have n2 : nint (2 : ℝ) = 2 := by
    unfold nint; rw [if_pos (by norm_num), Int.floor_eq_iff]; norm_num
  have n4 : nint (79/20 : ℝ) = 4 := by
    unfold nint; rw [if_pos (by norm_num), Int.floor_eq_iff]; norm_num
  have n5 : nint (91/20 : ℝ) = 5 := by
    unfold nint; rw [if_pos (by norm_num), Int.floor_eq_iff]; norm_num
  refine ⟨_, Esirkepov.mem_calc_yz_2nd (l2 := 0) (l3 := 2) ?_ ?_, ?_, ?_⟩
  · simp only [Esirkepov.dir2, n2]; decide
  · simp only [Esirkepov.dir2, n4, n5]; decide
  · simp only [Esirkepov.dir2, n2, n4, n5, Esirkepov.w2, Esirkepov.rhoSet2]
    norm_num
  · simp only [Esirkepov.dir2, n2, n4]; decide

/-- **C56 is false for the split push in yz and xz** when the cell of the invariant direction is short: a particle in its patch
(4×4 cells, one in x), slower than light and moving less than a cell, adds a nonzero current outside the single x cell. -/
theorem C56_split_yz_violation :
    ∃ (v xm xp : R3 ℚ), v 0 ^ 2 + v 1 ^ 2 + v 2 ^ 2 < 1 ∧ (∀ d, 0 ≤ xm d ∧ xm d < (![1, 4, 4] : I3) d) ∧
      (∀ d, yz d = true → xp d = xm d + v d * 1 / 1 ∧ |xp d - xm d| < 1) ∧
      ∃ e ∈ Current1vb.split_yz (1 : ℚ) 1 ![1, 1, 1] 1 v xm xp, e.v ≠ 0 ∧ ¬ InStorage ![1, 4, 4] ![0, 2, 2] e.i e.j e.k := by
  refine ⟨![9/10, 2/5, 0], ![0, 9/10, 1/2], ![0, 13/10, 1/2], by decide +kernel, by decide +kernel, ?_, by decide +kernel⟩
  intro d hd; fin_cases d
  · simp [yz] at hd
  · decide +kernel
  · decide +kernel

example : Room yz 2 ![1, 4, 4] ![0, 2, 2] ∧ Room yz 3 ![1, 4, 4] ![0, 3, 3] :=
  ⟨⟨by decide, by decide⟩, ⟨by decide, by decide⟩⟩

end Psc.Props
